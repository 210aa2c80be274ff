import Verif.DynClusters.TrackLemmas

/-! # C90-C92 : clusters followed in time

Vocabulary: `Bonded D a b t` : at time `t` the trajectories `a` and `b` exist and `b` is in the list of
neighbours of `a`; `PopBond D pop t` : the same between members of the population; `nCommon K S` : number
of common elements. -/

namespace Colloids
namespace DynClusters
open Dyn

variable {G : Type} [Field G] [LinearOrder G] {D : DynParts G} {pop : List Nat}

theorem assign_ok (h : Good D pop) (hn : D.positions ≠ []) {old fresh : List (List (List Nat))}
    (hfresh : fresh.length = D.positions.length)
    (hA : AllSets (List.zipWith (· ++ ·) (resize old D.positions.length) fresh))
    (hm : assignMembers D pop old = .ok (List.zipWith (· ++ ·) (resize old D.positions.length) fresh)) :
    ∃ tm ti, assign D pop old = .ok (List.zipWith (· ++ ·) (resize old D.positions.length) fresh, ti) ∧
      TrajIndex.ofMap tm = .ok ti ∧
      TrajMap.run ((List.zipWith (· ++ ·) (resize old D.positions.length) fresh).getD 0 []).length
        (histOf (List.zipWith (· ++ ·) (resize old D.positions.length) fresh) (D.positions.length - 1)) = .ok tm ∧
      (histOf (List.zipWith (· ++ ·) (resize old D.positions.length) fresh) (D.positions.length - 1)).length + 1
        ≤ szMod := by
  generalize hM : List.zipWith (· ++ ·) (resize old D.positions.length) fresh = M at *
  have hlen : M.length = D.positions.length := by
    rw [← hM, List.length_zipWith, resize_length, hfresh, Nat.min_self]
  have hpos := List.length_pos_iff.2 hn
  have hMne : M ≠ [] := List.length_pos_iff.1 (by omega)
  obtain ⟨tm, htm⟩ := C01_total _ _ (histOf_valid hA (D.positions.length - 1))
  have hsz : (histOf M (D.positions.length - 1)).length + 1 ≤ szMod := by
    have := h.wf.size
    simp only [histOf, List.length_map, List.length_range, szMod]
    omega
  obtain ⟨ti, hti, -⟩ := C03_index_inverse _ _ tm htm hsz
  refine ⟨tm, ti, ?_, hti, htm, hsz⟩
  unfold assign
  rw [hm, ok_bind, ← hlen, track_eq hMne, hlen, htm, ok_bind, hti]
  rfl

theorem zipWith_resize_nil (fresh : List (List (List Nat))) :
    List.zipWith (· ++ ·) (resize [] fresh.length) fresh = fresh := by
  unfold resize
  apply List.ext_getElem
  · simp
  · intro i h1 h2
    simp

/-- Everything on `assign` for a fresh object. -/
theorem assign_fresh (h : Good D pop) (hn : D.positions ≠ []) : ∃ members ti tm,
    assign D pop [] = .ok (members, ti) ∧ members.length = D.positions.length ∧ AllSets members ∧
    (∀ t ms, members[t]? = some ms → IsMembers D pop t ms) ∧ TrajIndex.ofMap tm = .ok ti ∧
    TrajMap.run (members.getD 0 []).length (histOf members (D.positions.length - 1)) = .ok tm ∧
    (histOf members (D.positions.length - 1)).length + 1 ≤ szMod := by
  obtain ⟨fresh, hl, hI, hm⟩ := assignMembers_ok h
  have hA : AllSets fresh := by
    intro ms hms K hK
    obtain ⟨t, ht⟩ := List.getElem?_of_mem hms
    exact (hI t ms ht).sorted K hK
  have e := zipWith_resize_nil fresh
  rw [hl] at e
  obtain ⟨tm, ti, h1, h2, h3, h4⟩ := assign_ok (old := []) h hn hl (by rw [e]; exact hA) (hm [])
  rw [e] at h1 h3 h4
  exact ⟨fresh, ti, tm, h1, hl, hA, hI, h2, h3, h4⟩

/-- The members of a new object: at each time, the connected parts of at least two trajectories. Two
distinct trajectories are in a same cluster exactly when a chain of bonds inside the population joins
them at this time. -/
theorem C90_members (h : Good D pop) (hn : D.positions ≠ []) : ∃ members ti,
    assign D pop [] = .ok (members, ti) ∧ members.length = D.positions.length ∧
    ∀ t ms, members[t]? = some ms →
      (∀ C ∈ ms, C.Pairwise (· < ·) ∧ 2 ≤ C.length) ∧ ms.Pairwise (fun C E => ∀ x ∈ C, x ∉ E) ∧
      ∀ a b, a ≠ b → ((∃ C ∈ ms, a ∈ C ∧ b ∈ C) ↔ Relation.ReflTransGen (PopBond D pop t) a b) := by
  obtain ⟨members, ti, tm, h1, h2, _, h3, _⟩ := assign_fresh h hn
  exact ⟨members, ti, h1, h2, fun t ms ht =>
    ⟨fun C hC => ⟨(h3 t ms ht).sorted C hC, (h3 t ms ht).two C hC⟩, (h3 t ms ht).disjoint, (h3 t ms ht).conn⟩⟩

/-- All the members belong to the population and exist at the time of the cluster. -/
theorem C90_exist (h : Good D pop) (members : List (List (List Nat))) (ti : TrajIndex)
    (e : assign D pop [] = .ok (members, ti)) (t : Nat) (ms : List (List Nat)) (C : List Nat) (a : Nat)
    (hms : members[t]? = some ms) (hC : C ∈ ms) (ha : a ∈ C) : a ∈ pop ∧ Exists D a t := by
  have hn : D.positions ≠ [] := by
    intro hn
    have : assign D pop [] = .error .ub := by
      unfold assign assignMembers
      rw [hn]
      rfl
    rw [this] at e
    cases e
  obtain ⟨members', ti', tm, h1, _, _, h3, _⟩ := assign_fresh h hn
  rw [e] at h1
  cases h1
  have hI := h3 t ms hms
  obtain ⟨x, y, hx, hy, hxy⟩ := exists_two ((hI.sorted C hC).imp (fun h => Nat.ne_of_lt h)) (hI.two C hC)
  obtain ⟨b, hb, hab⟩ : ∃ b ∈ C, a ≠ b := by
    by_cases hax : a = x
    · exact ⟨y, hy, hax ▸ hxy⟩
    · exact ⟨x, hx, hax⟩
  have hr := (hI.conn a b hab).1 ⟨C, hC, ha, hb⟩
  rcases Relation.ReflTransGen.cases_head hr with rfl | ⟨c, hc, _⟩
  · exact absurd rfl hab
  · obtain ⟨_, p, _, _, _, k2, _⟩ := hc.2.2
    exact ⟨hc.1, (exists_iff_convert h.wf).2 ⟨p, k2⟩⟩

/-- Without any time step the result is undefined. -/
theorem C90_no_time_step (hn : D.positions = []) (old : List (List (List Nat))) :
    assign D pop old = .error .ub := by
  unfold assign assignMembers
  rw [hn]
  have : resize old 0 = [] := by
    unfold resize
    simp
  simp only [List.length_nil, this]
  rfl

/-! ## C91 -/

/-- The clusters are numbered by trajectories: each cluster of each time belongs to exactly one, that
holds at most one cluster per time and has no hole. -/
theorem C91_one_to_one (h : Good D pop) (hn : D.positions ≠ []) : ∃ members ti,
    assign D pop [] = .ok (members, ti) ∧
    (∀ t ms K, members[t]? = some ms → K < ms.length → ∃ c, ti.invert t K = .ok c) ∧
    (∀ t K c, ti.invert t K = .ok c → ∃ ms, members[t]? = some ms ∧ K < ms.length) ∧
    (∀ t K c, ti.invert t K = .ok c ↔ ti.convert t c = .ok K) ∧
    (∀ t1 t2 t3 K1 K3 c, t1 ≤ t2 → t2 ≤ t3 → ti.convert t1 c = .ok K1 → ti.convert t3 c = .ok K3 →
      ∃ K2, ti.convert t2 c = .ok K2) := by
  obtain ⟨members, ti, tm, h1, hlen, _, h3, hof, hrun, hsz⟩ := assign_fresh h hn
  obtain ⟨ti', hof', _, k1, k2, _⟩ := C03_index_inverse _ _ tm hrun hsz
  rw [hof] at hof'
  cases hof'
  obtain ⟨z1, z2, z3, z4, z5⟩ := C01_one_to_one _ _ tm hrun
  have hpos := List.length_pos_iff.2 hn
  rw [histOf_sizes, show D.positions.length - 1 + 1 = members.length by omega] at z2 z3
  refine ⟨members, ti, h1, ?_, ?_, ?_, ?_⟩
  · intro t ms K ht hK
    have htl := (List.getElem?_eq_some_iff.1 ht).1
    obtain ⟨c, hc, _⟩ := z2 t ms.length (by
      rw [List.getElem?_map, List.getElem?_range htl, Option.map_some, getD_of ht]) K hK
    exact ⟨c, (k2 t K c).2 hc⟩
  · intro t K c hc
    obtain ⟨size, hs, hK⟩ := z3 t K c ((k2 t K c).1 hc)
    rw [List.getElem?_map, Option.map_eq_some_iff] at hs
    obtain ⟨t', ht', rfl⟩ := hs
    obtain ⟨htl, rfl⟩ := List.getElem?_eq_some_iff.1 ht'
    rw [List.getElem_range] at hK
    simp only [List.length_range] at htl
    rw [getD_of (List.getElem?_eq_getElem htl)] at hK
    exact ⟨_, List.getElem?_eq_getElem htl, hK⟩
  · intro t K c
    rw [k2, k1]
  · intro t1 t2 t3 K1 K3 c h12 h23 e1 e3
    obtain ⟨p, hp⟩ := C03_contiguous _ _ tm hrun h12 h23 ((k1 _ _ _).1 e1) ((k1 _ _ _).1 e3)
    exact ⟨p, (k1 _ _ _).2 hp⟩

/-- How the clusters are followed. Two successive clusters of the same trajectory have more than a third
of their union in common. And of two clusters that do, one at least is linked, with a cluster that
is at least as similar (smaller number of elements per common element).

Partial: the comment announces the cluster that has the most members in common, which is not always the
one that is linked (`C91_most_common_counterexample`). -/
theorem C91_linking_partial (h : Good D pop) (hn : D.positions ≠ []) : ∃ members ti,
    assign D pop [] = .ok (members, ti) ∧
    (∀ t c K S ms ms' k s, members[t]? = some ms → members[t + 1]? = some ms' →
      ti.invert t k = .ok c → ti.invert (t + 1) s = .ok c → ms[k]? = some K → ms'[s]? = some S →
      K.length + S.length < 4 * nCommon K S) ∧
    (∀ t ms ms' k s K S, members[t]? = some ms → members[t + 1]? = some ms' → ms[k]? = some K →
      ms'[s]? = some S → K.length + S.length < 4 * nCommon K S →
      ∃ k' s' K' S' c, ms[k']? = some K' ∧ ms'[s']? = some S' ∧ (k' = k ∨ s' = s) ∧
        ti.invert t k' = .ok c ∧ ti.invert (t + 1) s' = .ok c ∧
        (K'.length + S'.length) * nCommon K S ≤ (K.length + S.length) * nCommon K' S') := by
  obtain ⟨members, ti, tm, h1, hlen, hA, h3, hof, hrun, hsz⟩ := assign_fresh h hn
  obtain ⟨ti', hof', _, k1, k2, _⟩ := C03_index_inverse _ _ tm hrun hsz
  rw [hof] at hof'
  cases hof'
  refine ⟨members, ti, h1, ?_, ?_⟩
  · intro t c K S ms ms' k s ht ht' hk hs hK hS
    have htl := (List.getElem?_eq_some_iff.1 ht').1
    obtain ⟨K', S', e1, e2, hN⟩ := (track_step hA (show t < D.positions.length - 1 by omega) hrun).1 k s c
      ((k2 _ _ _).1 hk) ((k2 _ _ _).1 hs)
    rw [getD_of ht, hK] at e1
    rw [getD_of ht', hS] at e2
    cases e1
    cases e2
    exact hN
  · intro t ms ms' k s K S ht ht' hK hS hN
    have htl := (List.getElem?_eq_some_iff.1 ht').1
    obtain ⟨p', q', K', S', tr, e1, e2, hN', hd, hl, hl', ho⟩ :=
      (track_step hA (show t < D.positions.length - 1 by omega) hrun).2 k s K S
      (by rw [getD_of ht]; exact hK) (by rw [getD_of ht']; exact hS) hN
    rw [getD_of ht] at e1
    rw [getD_of ht'] at e2
    exact ⟨p', q', K', S', tr, e1, e2, ho, (k2 _ _ _).2 hl, (k2 _ _ _).2 hl',
      (dist_le_iff (near_iff.1 hN).1 (near_iff.1 hN').1).1 hd⟩

theorem nCommon_le_left (K S : List Nat) : nCommon K S ≤ K.length := List.length_filter_le _ _

theorem nCommon_le_right {K S : List Nat} (hK : K.Nodup) : nCommon K S ≤ S.length := by
  unfold nCommon
  apply List.Subperm.length_le
  apply List.subperm_of_subset (hK.filter _)
  intro x hx
  simpa using (List.mem_filter.1 hx).2

theorem nCommon_self (K : List Nat) : nCommon K K = K.length := by
  unfold nCommon
  rw [List.filter_eq_self.2]
  intro a ha
  simpa using ha

theorem eq_of_nCommon {K S : List Nat} (hK : K.Pairwise (· < ·)) (hS : S.Pairwise (· < ·))
    (h : K.length + S.length ≤ 2 * nCommon K S) : K = S := by
  have hn : ∀ {l : List Nat}, l.Pairwise (· < ·) → l.Nodup := fun h => h.imp (fun h => Nat.ne_of_lt h)
  have h1 := nCommon_le_left K S
  have h2 := nCommon_le_right (S := S) (hn hK)
  have hsub : ∀ x ∈ K, x ∈ S := by
    have : (K.filter (fun x => decide (x ∈ S))).length = K.length := by
      show nCommon K S = _
      omega
    rw [List.length_filter_eq_length_iff] at this
    intro x hx
    simpa using this x hx
  have hp : K.Perm S := (List.subperm_of_subset (hn hK) hsub).perm_of_length_le (by omega)
  exact hp.eq_of_pairwise (fun a b _ _ h1 h2 => by omega) hK hS

theorem index_unique {ms : List (List Nat)} (hd : ms.Pairwise (fun C E => ∀ x ∈ C, x ∉ E)) {i j : Nat}
    {C : List Nat} (hC : C ≠ []) (hi : ms[i]? = some C) (hj : ms[j]? = some C) : i = j := by
  obtain ⟨hi', ei⟩ := List.getElem?_eq_some_iff.1 hi
  obtain ⟨hj', ej⟩ := List.getElem?_eq_some_iff.1 hj
  obtain ⟨x, hx⟩ := List.exists_mem_of_ne_nil C hC
  rcases Nat.lt_trichotomy i j with h | h | h
  · exact absurd (ej ▸ hx) (List.pairwise_iff_getElem.1 hd i j hi' hj' h x (ei ▸ hx))
  · exact h
  · exact absurd (ei ▸ hx) (List.pairwise_iff_getElem.1 hd j i hj' hi' h x (ej ▸ hx))

/-- A cluster that keeps exactly its members keeps its trajectory. -/
theorem C91_unchanged (h : Good D pop) (hn : D.positions ≠ []) : ∃ members ti,
    assign D pop [] = .ok (members, ti) ∧
    ∀ t ms ms' k s C, members[t]? = some ms → members[t + 1]? = some ms' → ms[k]? = some C →
      ms'[s]? = some C → ∃ c, ti.invert t k = .ok c ∧ ti.invert (t + 1) s = .ok c := by
  obtain ⟨members, ti, h1, -, hlink⟩ := C91_linking_partial h hn
  obtain ⟨members', ti', tm, h1', _, hA, h3, _⟩ := assign_fresh h hn
  rw [h1] at h1'
  cases h1'
  refine ⟨members, ti, h1, ?_⟩
  intro t ms ms' k s C ht ht' hk hs
  have hI := h3 t ms ht
  have hI' := h3 (t + 1) ms' ht'
  have h2 := hI.two C (List.mem_of_getElem? hk)
  obtain ⟨k', s', K', S', c, e1, e2, ho, hc, hc', hd⟩ := hlink t ms ms' k s C C ht ht' hk hs (by
    rw [nCommon_self]; omega)
  rw [nCommon_self] at hd
  have hle : K'.length + S'.length ≤ 2 * nCommon K' S' := by
    have : C.length * (K'.length + S'.length) ≤ C.length * (2 * nCommon K' S') := by
      calc C.length * (K'.length + S'.length) = (K'.length + S'.length) * C.length := Nat.mul_comm _ _
        _ ≤ (C.length + C.length) * nCommon K' S' := hd
        _ = C.length * (2 * nCommon K' S') := by ring
    exact Nat.le_of_mul_le_mul_left this (by omega)
  have hKS := eq_of_nCommon (hI.sorted K' (List.mem_of_getElem? e1)) (hI'.sorted S' (List.mem_of_getElem? e2)) hle
  subst hKS
  have hCne : C ≠ [] := by
    rintro rfl
    simp at h2
  rcases ho with rfl | rfl
  · rw [hk] at e1
    cases e1
    have := index_unique hI'.disjoint hCne hs e2
    subst this
    exact ⟨c, hc, hc'⟩
  · rw [hs] at e2
    cases e2
    have := index_unique hI.disjoint hCne hk e1
    subst this
    exact ⟨c, hc, hc'⟩

/-- The cluster `K` of the first time has two followers. The one that is linked has two members of `K`,
the other one has three. -/
def splitMembers : List (List (List Nat)) := [[[1, 2, 3, 4, 5]], [[1, 2], [3, 4, 5, 6, 7, 8, 9, 10, 11]]]

/-- The comment announces that a cluster is followed by the cluster that has the most members in common.
It can be another one. -/
theorem C91_most_common_counterexample : ∃ tm ti, track splitMembers 2 = .ok tm ∧
    TrajIndex.ofMap tm = .ok ti ∧ ti.invert 0 0 = .ok 0 ∧ ti.invert 1 0 = .ok 0 ∧
    nCommon [1, 2, 3, 4, 5] [1, 2] = 2 ∧ nCommon [1, 2, 3, 4, 5] [3, 4, 5, 6, 7, 8, 9, 10, 11] = 3 := by
  have hA : AllSets splitMembers := by
    unfold AllSets splitMembers
    decide
  obtain ⟨tm, htm⟩ := C01_total _ _ (histOf_valid hA 1)
  obtain ⟨ti, hti, _, k1, k2, _⟩ := C03_index_inverse _ _ tm htm (by simp [histOf, szMod])
  have hst := (track_step hA (show 0 < 1 by decide) htm).2 0 0 [1, 2, 3, 4, 5] [1, 2] rfl rfl (by
    unfold Near nCommon
    decide)
  obtain ⟨p', q', K', S', tr, e1, e2, hN, -, hl, hl', -⟩ := hst
  have hp : p' = 0 ∧ K' = [1, 2, 3, 4, 5] := by
    match p', e1 with
    | 0, e1 =>
      have : K' = [1, 2, 3, 4, 5] := by simpa [splitMembers] using e1.symm
      exact ⟨rfl, this⟩
    | p + 1, e1 => simp [splitMembers] at e1
  obtain ⟨rfl, rfl⟩ := hp
  have hq : q' = 0 := by
    match q', e2 with
    | 0, _ => rfl
    | 1, e2 =>
      have : S' = [3, 4, 5, 6, 7, 8, 9, 10, 11] := by simpa [splitMembers] using e2.symm
      subst this
      revert hN
      unfold Near nCommon
      decide
    | q + 2, e2 => simp [splitMembers] at e2
  subst hq
  have h00 : Linked tm 0 0 0 := by
    obtain ⟨tm1, hr1, hl1⟩ := run_prefix (l1 := []) (l2 := histOf splitMembers 1) htm
    rw [hl1 0 0 0 (by rw [run_length hr1]; simp)]
    have : tm1 = TrajMap.init 1 := by
      have hr1' : TrajMap.run (D := ℚ) 1 [] = .ok tm1 := hr1
      unfold TrajMap.run at hr1'
      simpa using hr1'.symm
    subst this
    exact ⟨[(0, 0)], rfl, by simp⟩
  obtain ⟨z1, z2, -⟩ := C01_one_to_one _ _ tm htm
  obtain ⟨c, hc, huniq⟩ := z2 0 1 rfl 0 (by decide)
  have htr : tr = 0 := (huniq tr hl).trans (huniq 0 h00).symm
  subst htr
  refine ⟨tm, ti, ?_, hti, (k2 _ _ _).2 h00, (k2 _ _ _).2 hl', by unfold nCommon; decide,
    by unfold nCommon; decide⟩
  rw [show 2 = splitMembers.length from rfl, track_eq (by unfold splitMembers; simp)]
  exact htm

/-! ## C92 -/

/-- What `assign` does to an object already in use: the new clusters are added after the former ones. -/
theorem C92_appends (h : Good D pop) (hn : D.positions ≠ []) (old : List (List (List Nat)))
    (hold : AllSets old) (hlen : old.length ≤ D.positions.length) : ∃ fresh ti0 members ti,
    assign D pop [] = .ok (fresh, ti0) ∧ assign D pop old = .ok (members, ti) ∧
    members.length = D.positions.length ∧
    ∀ t ms, fresh[t]? = some ms → members[t]? = some (old.getD t [] ++ ms) := by
  obtain ⟨fresh, ti0, tm0, h1, hl, hA, _, _⟩ := assign_fresh h hn
  obtain ⟨fresh', hl', hI', hm⟩ := assignMembers_ok h
  have : fresh' = fresh := by
    have e := hm []
    rw [← hl', zipWith_resize_nil] at e
    unfold assign at h1
    rw [e, ok_bind, bind_ok] at h1
    obtain ⟨tm, _, h1⟩ := h1
    rw [bind_ok] at h1
    obtain ⟨ti, _, h1⟩ := h1
    rw [pure_eq_ok] at h1
    exact (Prod.mk.inj (Except.ok.inj h1)).1
  subst this
  have hget : ∀ t ms, fresh'[t]? = some ms →
      (List.zipWith (· ++ ·) (resize old D.positions.length) fresh')[t]? = some (old.getD t [] ++ ms) := by
    intro t ms ht
    have htl := (List.getElem?_eq_some_iff.1 ht).1
    rw [List.getElem?_zipWith, ht]
    have : (resize old D.positions.length)[t]? = some (old.getD t []) := by
      unfold resize
      rw [List.take_of_length_le hlen, List.getElem?_append]
      split
      · rename_i hlt
        rw [List.getD_eq_getElem?_getD, List.getElem?_eq_getElem hlt]
        rfl
      · rename_i hge
        rw [List.getElem?_replicate, if_pos (by omega), List.getD_eq_getElem?_getD,
          List.getElem?_eq_none (by omega)]
        rfl
    rw [this]
  have hA' : AllSets (List.zipWith (· ++ ·) (resize old D.positions.length) fresh') := by
    intro ms hms K hK
    obtain ⟨t, ht⟩ := List.getElem?_of_mem hms
    have htl := (List.getElem?_eq_some_iff.1 ht).1
    rw [List.length_zipWith, resize_length] at htl
    rw [hget t fresh'[t] (by simp)] at ht
    have := Option.some.inj ht
    rw [← this, List.mem_append] at hK
    rcases hK with hK | hK
    · exact hold.getD t K hK
    · exact hA _ (List.getElem_mem (by omega)) K hK
  obtain ⟨tm, ti, h2, -⟩ := assign_ok (old := old) h hn hl' hA' (hm old)
  exact ⟨fresh', ti0, _, ti, h1, h2, by simp [resize_length, hl'], hget⟩

/-- Partial: an object that holds no cluster is assigned as a new one. Missing: objects that hold
clusters, which keep them (`C92_twice_counterexample`). -/
theorem C92_fresh_partial (h : Good D pop) (hn : D.positions ≠ []) (old : List (List (List Nat)))
    (hold : ∀ ms ∈ old, ms = []) (hlen : old.length ≤ D.positions.length) :
    ∃ members ti ti', assign D pop [] = .ok (members, ti) ∧ assign D pop old = .ok (members, ti') := by
  obtain ⟨fresh, ti0, members, ti, h1, h2, h3, h4⟩ := C92_appends h hn old (by
    intro ms hms K hK
    rw [hold ms hms] at hK
    simp at hK) hlen
  obtain ⟨fresh', _, _, h1', hl', _⟩ := assign_fresh h hn
  rw [h1] at h1'
  cases h1'
  have : members = fresh := by
    apply List.ext_getElem?
    intro t
    by_cases ht : t < fresh.length
    · rw [h4 t fresh[t] (by simp), List.getElem?_eq_getElem ht]
      have : old.getD t [] = [] := by
        by_cases hto : t < old.length
        · rw [getD_of (List.getElem?_eq_getElem hto)]
          exact hold _ (List.getElem_mem hto)
        · rw [List.getD_eq_getElem?_getD, List.getElem?_eq_none (by omega)]
          rfl
      rw [this, List.nil_append]
    · rw [List.getElem?_eq_none (by omega), List.getElem?_eq_none (by omega)]
  subst this
  exact ⟨members, ti0, ti, h1, h2⟩

/-- Assigning twice the same data doubles all the clusters. -/
theorem C92_twice_counterexample (h : Good D pop) (hn : D.positions ≠ []) (members : List (List (List Nat)))
    (ti : TrajIndex) (e : assign D pop [] = .ok (members, ti)) :
    ∃ (members' : List (List (List Nat))) (ti' : TrajIndex), assign D pop members = .ok (members', ti') ∧
    ∀ (t : Nat) (ms : List (List Nat)), members[t]? = some ms → members'[t]? = some (ms ++ ms) := by
  obtain ⟨m, _, _, h1, hl, hA, _⟩ := assign_fresh h hn
  rw [e] at h1
  cases h1
  obtain ⟨fresh, ti0, members', ti', h1, h2, h3, h4⟩ := C92_appends h hn members hA (by omega)
  rw [e] at h1
  cases h1
  refine ⟨members', ti', h2, ?_⟩
  intro t ms ht
  have := h4 t ms ht
  rw [getD_of ht] at this
  exact this

/-! ## A concrete case -/

/-- Two particles bonded at the first of three times. -/
theorem good_exBonds : Good exBonds [0, 1] := by
  refine ⟨exBonds_wf, exBonds_ngb, ?_, by decide, by decide⟩
  rintro t a b ⟨N, p, row, q, h1, h2, h3, h4, h5⟩
  match t with
  | 0 =>
    have hN : N = [[1], [0]] := by simpa [exBonds] using h1.symm
    subst hN
    refine ⟨_, q, [p], p, h1, h5, ?_, by simp, h2⟩
    match p with
    | 0 =>
      have : row = [1] := by simpa using h3.symm
      subst this
      have : q = 1 := by simpa using h4
      subst this
      rfl
    | 1 =>
      have : row = [0] := by simpa using h3.symm
      subst this
      have : q = 0 := by simpa using h4
      subst this
      rfl
    | p + 2 => simp at h3
  | 1 =>
    have hN : N = [[], []] := by simpa [exBonds] using h1.symm
    subst hN
    match p with
    | 0 | 1 =>
      have : row = [] := by simpa using h3.symm
      subst this
      simp at h4
    | p + 2 => simp at h3
  | 2 =>
    have hN : N = [[], []] := by simpa [exBonds] using h1.symm
    subst hN
    match p with
    | 0 | 1 =>
      have : row = [] := by simpa using h3.symm
      subst this
      simp at h4
    | p + 2 => simp at h3
  | t + 3 => simp [exBonds] at h1

/-- They make one cluster at the first time. -/
example : ∃ members ti ms, assign exBonds [0, 1] [] = .ok (members, ti) ∧ members[0]? = some ms ∧
    ∃ C ∈ ms, 0 ∈ C ∧ 1 ∈ C := by
  obtain ⟨members, ti, h1, h2, h3⟩ := C90_members good_exBonds (by simp [exBonds, exTwo])
  have hl : members.length = 3 := h2
  refine ⟨members, ti, members[0], h1, by simp, ?_⟩
  refine ((h3 0 _ (by simp)).2.2 0 1 (by decide)).2 (.single ⟨by decide, by decide, ?_⟩)
  refine ⟨[[1], [0]], 0, [1], 1, rfl, ?_, rfl, by simp, ?_⟩
  · exact (convert_ok exBonds_wf).2 ⟨_, rfl, by decide, rfl⟩
  · exact (convert_ok exBonds_wf).2 ⟨_, rfl, by decide, rfl⟩

end DynClusters
end Colloids
