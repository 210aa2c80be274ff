import Verif.Dyn.CageLemmas
import Verif.Dyn.DriftProps
import Mathlib.Tactic.FinCases

/-! # C45, C65: cages -/

namespace Colloids
namespace Dyn

theorem chain_holds : ∀ (l : List Traj) (s : Nat), Chain s l → ∀ c ∈ l, ∀ t p, HoldsAt c t p →
    s ≤ t ∧ (l.flatMap Traj.steps)[t - s]? = some p := by
  intro l
  induction l with
  | nil => simp
  | cons c l ih =>
    rintro s ⟨h1, h2⟩ d hd t p ⟨h3, h4⟩
    rcases List.mem_cons.1 hd with rfl | hd
    · rw [h1] at h3 h4
      refine ⟨h3, ?_⟩
      rw [List.flatMap_cons, List.getElem?_append_left (List.getElem?_eq_some_iff.1 h4).1]
      exact h4
    · obtain ⟨h5, h6⟩ := ih _ h2 d hd t p ⟨h3, h4⟩
      refine ⟨by omega, ?_⟩
      rw [List.flatMap_cons, List.getElem?_append_right (by omega), show t - s - c.steps.length =
        t - (s + c.steps.length) by omega]
      exact h6

theorem chain_disjoint : ∀ (l : List Traj) (s : Nat), Chain s l →
    l.Pairwise (fun c c' => ∀ t p p', ¬ (HoldsAt c t p ∧ HoldsAt c' t p')) := by
  intro l
  induction l with
  | nil => intro s _; exact List.Pairwise.nil
  | cons c l ih =>
    rintro s ⟨h1, h2⟩
    rw [List.pairwise_cons]
    refine ⟨?_, ih _ h2⟩
    rintro d hd t p p' ⟨⟨h3, h4⟩, h5⟩
    have := (chain_holds l _ h2 d hd t p' h5).1
    have := (List.getElem?_eq_some_iff.1 h4).1
    omega

theorem IsCut.holds {T : Traj} {l : List Traj} (h : IsCut T l) {c : Traj} (hc : c ∈ l) {t p : Nat}
    (hh : HoldsAt c t p) : HoldsAt T t p := by
  obtain ⟨h1, h2⟩ := chain_holds l _ h.chain c hc t p hh
  refine ⟨h1, ?_⟩
  have hlen : 0 < l.length := List.length_pos_iff.2 h.nonempty
  by_cases h1l : l.length = 1
  · rw [h.whole h1l] at h2
    simpa using h2
  · rw [h.cut (by omega), List.getElem?_dropLast] at h2
    split at h2
    · exact h2
    · cases h2

theorem IsCut.fits {T : Traj} {l : List Traj} (h : IsCut T l) {c : Traj} (hc : c ∈ l) :
    c.start + c.steps.length ≤ T.start + T.steps.length := by
  have hne := h.steps c hc
  have hl : 0 < c.steps.length := List.length_pos_iff.2 hne
  have := (h.holds hc (t := c.start + (c.steps.length - 1)) (p := c.steps[c.steps.length - 1]'(by omega))
    ⟨by omega, by simp⟩)
  have h2 := (List.getElem?_eq_some_iff.1 this.2).1
  have := this.1
  omega

theorem cagesOf_ok {D : DynParts ℝ} (hw : Wf D) (hr : D.radius ≠ 0) (resolution : Nat) {T : Traj}
    (hT : T ∈ D.trajectories.trajs) : ∃ l, cagesOf D resolution T = .ok l ∧ IsCut T l := by
  have hne := hw.nonempty T hT
  have hlen : 0 < T.steps.length := List.length_pos_iff.2 hne
  unfold cagesOf
  split
  · exact ⟨[T], rfl, ⟨by simp, ⟨rfl, trivial⟩, by simpa using hne, fun _ => rfl, by simp⟩⟩
  · obtain ⟨tr, htr⟩ := List.mem_iff_getElem?.1 hT
    have hat : ∀ t ∈ TrajIndex.times T, ∃ x, (do
        let ps ← getR D.positions t
        let p ← T.at_ t
        getR ps.pos p : R (Coord ℝ)) = .ok x := by
      intro t ht
      rw [times_eq hne (hw.fits' hT), List.mem_range'_1] at ht
      obtain ⟨x, hx⟩ := (at_ok hw).1 ⟨T, htr, ht.1, ht.2⟩
      unfold at_ at hx
      rw [getR_ok.2 htr, ok_bind] at hx
      obtain ⟨p, h1, h2⟩ := bind_ok.1 hx
      obtain ⟨ps, h3, h4⟩ := bind_ok.1 h2
      exact ⟨x, by rw [h3, ok_bind, h1, ok_bind, h4]⟩
    choose! f hf using hat
    rw [TreeIndex.mapM_ok_of _ f _ hf, ok_bind]
    have hpl : ((TrajIndex.times T).map f).length = T.steps.length := by
      rw [List.length_map, times_eq hne (hw.fits' hT), List.length_range']
    have hth : 0 < (D.radius * (1 / 2)) ^ 2 := by positivity
    rw [hpl]
    obtain ⟨jumps, j1, j2, j3⟩ := split_spec (pos := (TrajIndex.times T).map f) hth resolution
      (T.steps.length + 1) 0 (T.steps.length - 1) (by omega) (by rw [hpl]; omega) (by omega)
    rw [j1, ok_bind]
    have hb : T.start + T.steps.length ≤ 2 ^ 64 := le_trans (hw.fits T hT) hw.size
    obtain ⟨l, h1, h2, -⟩ := cutTraj_spec hne hb j2 j3
    exact ⟨l, h1, h2⟩

/-- C45. With a radius that is not null, `getCages` always ends, whatever the resolution. Each trajectory is
either kept whole or cut into consecutive cages that are not empty, that do not overlap and that cover all
its positions but the last one. The inverse index finds the cage of each position that is in a cage.
Missing: the last position of a trajectory that is cut, see `C45_last_counterexample`. -/
theorem C45_cages_partial {D : DynParts ℝ} (hw : Wf D) (hr : D.radius ≠ 0) (resolution : Nat) :
    ∃ (cages : TrajIndex) (parts : List (List Traj)), getCages D resolution = .ok cages ∧
      cages.trajs = parts.flatten ∧ parts.length = D.trajectories.trajs.length ∧
      (∀ (i : Nat) (T : Traj) (l : List Traj), D.trajectories.trajs[i]? = some T → parts[i]? = some l →
        l ≠ [] ∧ Chain T.start l ∧ (∀ c ∈ l, c.steps ≠ []) ∧
        (l = [T] ∨ l.flatMap Traj.steps = T.steps.dropLast)) ∧
      (∀ t k p, cages.convert t k = .ok p → cages.invert t p = .ok k) ∧
      (∀ t k k' p, cages.convert t k = .ok p → cages.convert t k' = .ok p → k = k') ∧
      (∀ (i : Nat) (T : Traj) (l : List Traj), D.trajectories.trajs[i]? = some T → parts[i]? = some l →
        1 < l.length → ∀ p, T.steps.getLast? = some p →
        (∀ k, cages.convert (T.start + T.steps.length - 1) k ≠ .ok p) ∧
        cages.invert (T.start + T.steps.length - 1) p = .ok 0) := by
  have hall := fun T hT => cagesOf_ok (T := T) hw hr resolution hT
  choose! f hf hcut using hall
  set parts := D.trajectories.trajs.map f with hparts
  have hget : ∀ (i : Nat) (T : Traj) (l : List Traj), D.trajectories.trajs[i]? = some T → parts[i]? = some l →
      T ∈ D.trajectories.trajs ∧ l = f T := by
    intro i T l h1 h2
    refine ⟨List.mem_of_getElem? h1, ?_⟩
    rw [hparts, List.getElem?_map, h1] at h2
    exact (Option.some.inj h2).symm
  have hmem : ∀ c ∈ parts.flatten, ∃ T ∈ D.trajectories.trajs, c ∈ f T := by
    intro c hc
    obtain ⟨l, hl, hcl⟩ := List.mem_flatten.1 hc
    obtain ⟨T, hT, rfl⟩ := List.mem_map.1 hl
    exact ⟨T, hT, hcl⟩
  have hb : ∀ c ∈ parts.flatten, c.start + c.steps.length ≤ szMod := by
    intro c hc
    obtain ⟨T, hT, hcT⟩ := hmem c hc
    exact le_trans ((hcut T hT).fits hcT) (hw.fits' hT)
  have hne : ∀ c ∈ parts.flatten, c.steps ≠ [] := by
    intro c hc
    obtain ⟨T, hT, hcT⟩ := hmem c hc
    exact (hcut T hT).steps c hcT
  -- trajectories that hold the same position are the same
  have hone : ∀ (i j : Nat) (T T' : Traj) (t p : Nat), D.trajectories.trajs[i]? = some T →
      D.trajectories.trajs[j]? = some T' → HoldsAt T t p → HoldsAt T' t p → i = j := by
    intro i j T T' t p hi hj h1 h2
    have e1 := (hw.inverse t p i).2 ((convert_ok hw).2 ⟨T, hi, h1⟩)
    have e2 := (hw.inverse t p j).2 ((convert_ok hw).2 ⟨T', hj, h2⟩)
    rw [e1] at e2
    exact Except.ok.inj e2
  have hdis : parts.flatten.Pairwise (fun T T' => ∀ t p, ¬ (HoldsAt T t p ∧ HoldsAt T' t p)) := by
    rw [List.pairwise_flatten]
    constructor
    · intro l hl
      obtain ⟨T, hT, rfl⟩ := List.mem_map.1 hl
      exact (chain_disjoint _ _ (hcut T hT).chain).imp (fun h t p => h t p p)
    · rw [hparts, List.pairwise_map, List.pairwise_iff_getElem]
      intro i j hi hj hij c hc c' hc' t p hh
      have := hone i j _ _ t p (List.getElem?_eq_getElem hi) (List.getElem?_eq_getElem hj)
        ((hcut _ (List.getElem_mem hi)).holds hc hh.1) ((hcut _ (List.getElem_mem hj)).holds hc' hh.2)
      omega
  have hframe : ∀ T ∈ D.trajectories.trajs, ∀ t p, HoldsAt T t p →
      ∃ n, (D.positions.map (fun ps => ps.pos.length))[t]? = some n ∧ p < n := by
    intro T hT t p hh
    obtain ⟨i, hi⟩ := List.mem_iff_getElem?.1 hT
    obtain ⟨inv, h1, h2⟩ := invert_ok.1 ((hw.inverse t p i).2 ((convert_ok hw).2 ⟨T, hi, hh⟩))
    refine ⟨inv.length, ?_, (List.getElem?_eq_some_iff.1 h2).1⟩
    rw [← hw.frames, List.getElem?_map, h1]
    rfl
  obtain ⟨inv, i1, i2, i3, i4⟩ := makeInverse_spec (ts := parts.flatten)
    (sizes := D.positions.map (fun ps => ps.pos.length)) hne hb (by
      intro c hc t p hh
      obtain ⟨T, hT, hcT⟩ := hmem c hc
      exact hframe T hT t p ((hcut T hT).holds hcT hh)) hdis
  have hconv : ∀ t k p, (⟨parts.flatten, inv⟩ : TrajIndex).convert t k = .ok p ↔
      ∃ c, parts.flatten[k]? = some c ∧ HoldsAt c t p := by
    intro t k p
    unfold TrajIndex.convert
    rw [bind_ok]
    constructor
    · rintro ⟨c, h1, h2⟩
      rw [getR_ok] at h1
      have hc := List.mem_of_getElem? h1
      exact ⟨c, h1, (at_eq (hne c hc) (hb c hc)).1 h2⟩
    · rintro ⟨c, h1, h2⟩
      have hc := List.mem_of_getElem? h1
      exact ⟨c, getR_ok.2 h1, (at_eq (hne c hc) (hb c hc)).2 h2⟩
  have hinv : ∀ t p k, (⟨parts.flatten, inv⟩ : TrajIndex).invert t p = .ok k ↔ look inv t p = some k := by
    intro t p k
    rw [invert_ok]
    unfold look
    rw [Option.bind_eq_some_iff]
  have hci : ∀ t k p, (⟨parts.flatten, inv⟩ : TrajIndex).convert t k = .ok p →
      (⟨parts.flatten, inv⟩ : TrajIndex).invert t p = .ok k := by
    intro t k p h
    obtain ⟨c, h1, h2⟩ := (hconv t k p).1 h
    exact (hinv t p k).2 (i3 k c t p h1 h2)
  refine ⟨⟨parts.flatten, inv⟩, parts, ?_, rfl, by simp [hparts], ?_, hci, ?_, ?_⟩
  · unfold getCages
    rw [TreeIndex.mapM_ok_of _ f _ hf, ok_bind, i1, ok_bind]
    rfl
  · intro i T l h1 h2
    obtain ⟨hT, rfl⟩ := hget i T l h1 h2
    have hc := hcut T hT
    refine ⟨hc.nonempty, hc.chain, hc.steps, ?_⟩
    have hlen : 0 < (f T).length := List.length_pos_iff.2 hc.nonempty
    by_cases h1l : (f T).length = 1
    · exact .inl (hc.whole h1l)
    · exact .inr (hc.cut (by omega))
  · intro t k k' p h1 h2
    have e1 := hci t k p h1
    rw [hci t k' p h2] at e1
    exact (Except.ok.inj e1).symm
  · intro i T l h1 h2 hl p hp
    obtain ⟨hT, rfl⟩ := hget i T l h1 h2
    have hlen : 0 < T.steps.length := List.length_pos_iff.2 (hw.nonempty T hT)
    have hTp : HoldsAt T (T.start + T.steps.length - 1) p := by
      refine ⟨by omega, ?_⟩
      rw [List.getLast?_eq_getElem?] at hp
      rw [← hp]
      congr 1
      omega
    have hno : ∀ c ∈ parts.flatten, ¬ HoldsAt c (T.start + T.steps.length - 1) p := by
      intro c hc hh
      obtain ⟨l', hl', hcl⟩ := List.mem_flatten.1 hc
      obtain ⟨j, hj⟩ := List.mem_iff_getElem?.1 hl'
      have hj' := hj
      rw [hparts, List.getElem?_map] at hj'
      obtain ⟨T', hT', rfl⟩ := Option.map_eq_some_iff.1 hj'
      have hTm' := List.mem_of_getElem? hT'
      have hij := hone i j T T' _ _ h1 hT' hTp ((hcut T' hTm').holds hcl hh)
      subst hij
      rw [h1] at hT'
      cases hT'
      have h3 := (chain_holds _ _ (hcut T hT).chain c hcl _ _ hh).2
      rw [(hcut T hT).cut hl] at h3
      have := (List.getElem?_eq_some_iff.1 h3).1
      simp only [List.length_dropLast] at this
      omega
    refine ⟨?_, ?_⟩
    · intro k hk
      obtain ⟨c, h3, h4⟩ := (hconv _ k p).1 hk
      exact hno c (List.mem_of_getElem? h3) h4
    · rw [hinv]
      obtain ⟨n, hn1, hn2⟩ := hframe T hT _ _ hTp
      exact i4 _ p n hn1 hn2 hno

/-! ## An example -/

/-- A particle that goes from `v-1` to `v+1` and to `v` along the first axis. -/
noncomputable def exCage (v r : ℝ) : DynParts ℝ :=
  ⟨[⟨[![v - 1, 0, 0]], ⟨fun _ => 0, fun _ => 10⟩, 1, none⟩,
    ⟨[![v + 1, 0, 0]], ⟨fun _ => 0, fun _ => 10⟩, 1, none⟩,
    ⟨[![v, 0, 0]], ⟨fun _ => 0, fun _ => 10⟩, 1, none⟩],
   ⟨[⟨0, [0, 0, 0]⟩], [[0], [0], [0]]⟩, r, none, []⟩

theorem exCage_wf (v r : ℝ) : Wf (exCage v r) := by
  have hne : ∀ T ∈ (exCage v r).trajectories.trajs, T.steps ≠ [] := by
    intro T hT; simp [exCage] at hT; subst hT; simp
  have hfit : ∀ T ∈ (exCage v r).trajectories.trajs, T.start + T.steps.length ≤ szMod := by
    intro T hT; simp [exCage] at hT; subst hT; simp [szMod]
  refine ⟨hne, ?_, by simp [exCage], rfl, ?_⟩
  · intro T hT; simp [exCage] at hT; subst hT; simp [exCage]
  · intro t p tr
    rw [invert_ok]
    have hc : (exCage v r).trajectories.convert t tr = .ok p ↔ ∃ T, (exCage v r).trajectories.trajs[tr]? = some T ∧
        T.start ≤ t ∧ T.steps[t - T.start]? = some p := by
      unfold TrajIndex.convert
      rw [bind_ok]
      constructor
      · rintro ⟨T, h1, h2⟩
        rw [getR_ok] at h1
        have hT := List.mem_of_getElem? h1
        exact ⟨T, h1, (at_eq (hne T hT) (hfit T hT)).1 h2⟩
      · rintro ⟨T, h1, h2⟩
        have hT := List.mem_of_getElem? h1
        exact ⟨T, getR_ok.2 h1, (at_eq (hne T hT) (hfit T hT)).2 h2⟩
    rw [hc]
    match tr, t with
    | 0, 0 | 0, 1 | 0, 2 =>
      match p with
      | 0 => simp [exCage]
      | p + 1 => simp [exCage]
    | 0, t + 3 => simp [exCage]
    | tr + 1, 0 | tr + 1, 1 | tr + 1, 2 =>
      match p with
      | 0 => simp [exCage]
      | p + 1 => simp [exCage]
    | tr + 1, t + 3 => simp [exCage]

theorem norm2_axis (x : ℝ) : norm2 ![x, 0, 0] = |x| := by
  unfold norm2 dot3
  simp [Real.sqrt_mul_self_eq_abs]

theorem exCage_separation (v : ℝ) :
    separationAt [![v - 1, 0, 0], ![v + 1, 0, 0], ![v, 0, 0]] 0 2 1 = .ok (Real.sqrt (|v| / 4)) := by
  unfold separationAt
  rw [mapM_getR_range' _ _ (by simp), ok_bind, mapM_getR_range' _ _ (by simp), ok_bind]
  simp only [Nat.sub_zero, List.drop_zero]
  rw [pure_eq_ok]
  congr 2
  have h1 : (fun a => ((List.take (1 + 1) [![v - 1, 0, 0], ![v + 1, 0, 0], ![v, 0, 0]]).foldl
      (fun x1 x2 => x1 + x2) 0 : Coord ℝ) a / ((1 + 1 : Nat) : ℝ)) = ![v, 0, 0] := by
    funext a
    fin_cases a
    · simp
    · simp
    · simp
  rw [h1]
  have h2 : (fun a => ((List.take (2 - 1) (List.drop (1 + 1) [![v - 1, 0, 0], ![v + 1, 0, 0], ![v, 0, 0]])).foldl
      (fun x1 x2 => x1 + x2) ![v, 0, 0] : Coord ℝ) a / ((2 - 1 : Nat) : ℝ)) = ![2 * v, 0, 0] := by
    funext a
    fin_cases a
    · simp; ring
    · simp
    · simp
  rw [h2]
  have e1 : (![v - 1, 0, 0] - ![v, 0, 0] : Coord ℝ) = ![-1, 0, 0] := by
    funext a; fin_cases a <;> simp
  have e2 : (![v + 1, 0, 0] - ![v, 0, 0] : Coord ℝ) = ![1, 0, 0] := by
    funext a; fin_cases a <;> simp
  have e3 : (![v, 0, 0] - ![2 * v, 0, 0] : Coord ℝ) = ![-v, 0, 0] := by
    funext a; fin_cases a
    · simp; ring
    · simp
    · simp
  simp only [List.take_succ_cons, List.take_zero, List.map_cons, List.map_nil, List.drop_succ_cons, List.drop_zero,
    e1, e2, e3, norm2_axis, List.sum_cons, List.sum_nil]
  norm_num
  ring

theorem exCage_cages (v r : ℝ) (hr : r ≠ 0) (resolution : Nat) (hres : 1 ≤ resolution) (hres3 : resolution ≤ 3) :
    cagesOf (exCage v r) resolution ⟨0, [0, 0, 0]⟩ =
      .ok (if (r * (1 / 2)) ^ 2 ≤ Real.sqrt (|v| / 4) then [⟨0, [0]⟩, ⟨1, [0]⟩] else [⟨0, [0, 0, 0]⟩]) := by
  have hlt : (⟨0, [0, 0, 0]⟩ : Traj).lastTime = 2 := by simp [Traj.lastTime, szMod]
  have hb : 0 + [0, 0, 0].length ≤ szMod := by simp [szMod]
  have hat : ∀ t, t < 3 → (⟨0, [0, 0, 0]⟩ : Traj).at_ t = .ok 0 := by
    intro t ht
    rw [at_eq (by simp) hb]
    refine ⟨by simp, ?_⟩
    match t with
    | 0 | 1 | 2 => rfl
  unfold cagesOf
  rw [hlt, if_neg (by simp; omega), show TrajIndex.times ⟨0, [0, 0, 0]⟩ = [0, 1, 2] by
    rw [TrajIndex.times, hlt]; rfl]
  rw [show ([0, 1, 2].mapM (fun t => do
      let ps ← getR (exCage v r).positions t
      let p ← (⟨0, [0, 0, 0]⟩ : Traj).at_ t
      getR ps.pos p) : R (List (Coord ℝ))) = .ok [![v - 1, 0, 0], ![v + 1, 0, 0], ![v, 0, 0]] by
    simp only [List.mapM_cons, List.mapM_nil, hat 0 (by omega), hat 1 (by omega), hat 2 (by omega)]
    rfl]
  rw [ok_bind]
  simp only [List.length_cons, List.length_nil, Nat.zero_add, Nat.reduceAdd, Nat.reduceSub]
  have h0 : separationAt [![v - 1, 0, 0], ![v + 1, 0, 0], ![v, 0, 0]] 0 2 0 = .ok 0 := by
    obtain ⟨y, h1, h2⟩ := separationAt_ok (pos := [![v - 1, 0, 0], ![v + 1, 0, 0], ![v, 0, 0]]) (first := 0)
      (second := 2) (t := 0) (by omega) (by omega) (by simp)
    rw [h1, h2 rfl]
  have hs : splitByCageJump [![v - 1, 0, 0], ![v + 1, 0, 0], ![v, 0, 0]] (((exCage v r).radius * (1 / 2)) ^ 2)
      resolution 4 0 2 = .ok (if (r * (1 / 2)) ^ 2 ≤ Real.sqrt (|v| / 4) then [1] else []) := by
    unfold splitByCageJump
    rw [if_neg (by omega)]
    simp only [Nat.sub_zero, List.range'_succ, List.range'_zero, List.mapM_cons, List.mapM_nil, h0,
      exCage_separation, ok_bind, Nat.add_zero, Nat.zero_add, pure_eq_ok]
    have hpos : 0 < (r * (1 / 2)) ^ 2 := by positivity
    have hrad : (exCage v r).radius = r := rfl
    rw [hrad]
    by_cases hv : 0 < Real.sqrt (|v| / 4)
    · have ha : argmax ([0, Real.sqrt (|v| / 4)] ++ [0]) = 1 := by
        simp only [List.cons_append, List.nil_append, argmax, argmaxFrom, hv, if_true]
        rw [if_neg (not_lt.2 hv.le)]
      rw [ha, show getR ([0, Real.sqrt (|v| / 4)] ++ [0]) 1 = .ok (Real.sqrt (|v| / 4)) from rfl, ok_bind]
      by_cases hj : (r * (1 / 2)) ^ 2 ≤ Real.sqrt (|v| / 4)
      · rw [if_pos hj, if_pos hj, if_neg (by omega), ok_bind, if_neg (by omega), ok_bind]
        rfl
      · rw [if_neg hj, if_neg hj]
    · have hz : Real.sqrt (|v| / 4) = 0 := le_antisymm (not_lt.1 hv) (Real.sqrt_nonneg _)
      rw [hz]
      have ha : argmax ([0, 0] ++ [(0 : ℝ)]) = 0 := by
        simp [argmax, argmaxFrom]
      rw [ha, show getR ([0, 0] ++ [(0 : ℝ)]) 0 = .ok 0 from rfl, ok_bind, if_neg (not_le.2 hpos),
        if_neg (not_le.2 hpos)]
  rw [hs, ok_bind]
  split
  · unfold cutTraj
    have hm : [1].mergeSort (fun a b => decide (a ≤ b)) = [1] := by simp
    rw [hm]
    simp only [List.cons_append, List.nil_append, cutAt]
    have a1 := subtraj_eq (T := ⟨0, [0, 0, 0]⟩) (by simp) (by simp) (i := 0) (j := 1) (by omega) (by simp)
    have a2 := subtraj_eq (T := ⟨0, [0, 0, 0]⟩) (by simp) (by simp) (i := 1) (j := 2) (by omega) (by simp)
    simp only [Nat.add_zero, Nat.reduceSub, Nat.reduceAdd] at a1 a2 ⊢
    rw [a1, a2]
    rfl
  · unfold cutTraj
    simp [pure_eq_ok]

/-- C45. The last position of a trajectory that is cut is in no cage, and the inverse index says that it is in
the first cage. Here the trajectory of three positions is cut in two cages of one position each although the
resolution, documented as the minimum number of time steps between two jumps, is 3. -/
theorem C45_last_counterexample :
    ∃ cages, getCages (exCage 100 1) 3 = .ok cages ∧ cages.trajs = [⟨0, [0]⟩, ⟨1, [0]⟩] ∧
      (exCage 100 1).trajectories.convert 2 0 = .ok 0 ∧
      (∀ k, cages.convert 2 k ≠ .ok 0) ∧ cages.invert 2 0 = .ok 0 := by
  obtain ⟨cages, parts, h1, h2, h3, -, -, -, h7⟩ := C45_cages_partial (exCage_wf 100 1) one_ne_zero 3
  have hc : cagesOf (exCage 100 1) 3 ⟨0, [0, 0, 0]⟩ = .ok [⟨0, [0]⟩, ⟨1, [0]⟩] := by
    rw [exCage_cages 100 1 one_ne_zero 3 (by omega) (le_refl _), if_pos]
    rw [show |(100 : ℝ)| / 4 = 5 ^ 2 by norm_num, Real.sqrt_sq (by norm_num)]
    norm_num
  have h1' := h1
  unfold getCages at h1'
  obtain ⟨parts', e1, e2⟩ := bind_ok.1 h1'
  rw [show (exCage 100 1).trajectories.trajs = [⟨0, [0, 0, 0]⟩] from rfl, List.mapM_cons, hc, ok_bind, List.mapM_nil,
    pure_eq_ok, ok_bind, pure_eq_ok] at e1
  cases e1
  obtain ⟨inv, e3, e4⟩ := bind_ok.1 e2
  cases e4
  refine ⟨_, h1, rfl, ?_, ?_⟩
  · rw [convert_ok (exCage_wf 100 1)]
    exact ⟨⟨0, [0, 0, 0]⟩, rfl, by simp, rfl⟩
  · have hlen : parts.length = 1 := h3
    match parts, hlen with
    | [l], _ =>
      have hl : l = [⟨0, [0]⟩, ⟨1, [0]⟩] := by
        simpa using h2.symm
      have := h7 0 ⟨0, [0, 0, 0]⟩ l rfl rfl (by simp [hl]) 0 rfl
      exact this

/-- C65. The cages depend on the origin of the coordinates: the same displacements are cut or not, because the
center of mass of the end of the trajectory is computed from that of its beginning. -/
theorem C65_origin_counterexample :
    (∀ t, at_ (exCage 100 1) 0 t = (at_ (exCage 0 1) 0 t).map (fun x => x + ![100, 0, 0])) ∧
    cagesOf (exCage 0 1) 1 ⟨0, [0, 0, 0]⟩ = .ok [⟨0, [0, 0, 0]⟩] ∧
    cagesOf (exCage 100 1) 1 ⟨0, [0, 0, 0]⟩ = .ok [⟨0, [0]⟩, ⟨1, [0]⟩] := by
  refine ⟨?_, ?_, ?_⟩
  · intro t
    have hv : ∀ v, at_ (exCage v 1) 0 t = (do
        let p ← (⟨0, [0, 0, 0]⟩ : Traj).at_ t
        let ps ← getR (exCage v 1).positions t
        getR ps.pos p) := fun v => rfl
    rw [hv, hv]
    cases (⟨0, [0, 0, 0]⟩ : Traj).at_ t with
    | error e => rfl
    | ok p =>
      rw [ok_bind, ok_bind]
      match t, p with
      | 0, 0 | 1, 0 | 2, 0 =>
        show Except.ok _ = Except.ok _
        congr 1
        funext a
        fin_cases a
        · norm_num
        · norm_num
        · norm_num
      | 0, p + 1 | 1, p + 1 | 2, p + 1 | t + 3, p => rfl
  · rw [exCage_cages 0 1 one_ne_zero 1 (by omega) (by omega), if_neg]
    norm_num
  · rw [exCage_cages 100 1 one_ne_zero 1 (by omega) (by omega), if_pos]
    rw [show |(100 : ℝ)| / 4 = 5 ^ 2 by norm_num, Real.sqrt_sq (by norm_num)]
    norm_num

end Dyn
end Colloids
