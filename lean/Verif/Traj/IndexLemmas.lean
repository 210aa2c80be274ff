import Verif.Traj.MapLemmas

/-! # Helper lemmas for `TrajIndex` -/

namespace Colloids

/-- Specification vocabulary: the position held by trajectory number `tr` at time `t`, read
directly on the stored start time and steps. -/
def posAt (ts : List Traj) (tr t : Nat) : Option Nat :=
  match ts[tr]? with
  | none => none
  | some T => if T.start ≤ t then T.steps[t - T.start]? else none

theorem lastTime_eq {tr : Traj} (h : tr.steps ≠ []) (hb : tr.start + tr.steps.length ≤ szMod) :
    tr.lastTime = tr.start + tr.steps.length - 1 := by
  have : 0 < tr.steps.length := List.length_pos_iff.2 h
  unfold Traj.lastTime
  have h2 : tr.start + tr.steps.length + (szMod - 1) = (tr.start + tr.steps.length - 1) + szMod := by
    unfold szMod at *; omega
  rw [h2, Nat.add_mod_right, Nat.mod_eq_of_lt]
  omega

theorem times_eq {tr : Traj} (h : tr.steps ≠ []) (hb : tr.start + tr.steps.length ≤ szMod) :
    TrajIndex.times tr = List.range' tr.start tr.steps.length := by
  have : 0 < tr.steps.length := List.length_pos_iff.2 h
  unfold TrajIndex.times
  rw [lastTime_eq h hb]
  congr 1; omega

theorem exist_iff {tr : Traj} (h : tr.steps ≠ []) (hb : tr.start + tr.steps.length ≤ szMod)
    (t : Nat) : tr.exist t = true ↔ tr.start ≤ t ∧ t < tr.start + tr.steps.length := by
  have : 0 < tr.steps.length := List.length_pos_iff.2 h
  unfold Traj.exist
  rw [lastTime_eq h hb]
  split
  · rename_i hc; simp at hc; simp; omega
  · rename_i hc; simp at hc; simp; omega

theorem at_eq {tr : Traj} (h : tr.steps ≠ []) (hb : tr.start + tr.steps.length ≤ szMod)
    {t p : Nat} : tr.at_ t = .ok p ↔ tr.start ≤ t ∧ tr.steps[t - tr.start]? = some p := by
  unfold Traj.at_
  by_cases he : tr.exist t = true
  · rw [he]; simp only [Bool.not_true, Bool.false_eq_true, if_false]
    rw [getR_ok]
    have := (exist_iff h hb t).1 he
    simp [this.1]
  · have he' : tr.exist t = false := by simpa using he
    rw [he']; simp only [Bool.not_false, if_true]
    constructor
    · intro h; cases h
    · rintro ⟨h1, h2⟩
      obtain ⟨h3, -⟩ := List.getElem?_eq_some_iff.1 h2
      exact absurd ((exist_iff h hb t).2 ⟨h1, by omega⟩) he

theorem takeWhile_eq_filter_of_sorted {l : List (Nat × Nat)} (k : Nat)
    (hs : l.Pairwise (fun a b => a.2 ≤ b.2)) :
    l.takeWhile (fun x => decide (x.2 ≤ k)) = l.filter (fun x => decide (x.2 ≤ k)) ∧
    l.dropWhile (fun x => decide (x.2 ≤ k)) = l.filter (fun x => !decide (x.2 ≤ k)) := by
  induction l with
  | nil => simp
  | cons x xs ih =>
    rw [List.pairwise_cons] at hs
    by_cases hx : x.2 ≤ k
    · simp [hx, ih hs.2]
    · have h1 : ∀ y ∈ xs, ¬ y.2 ≤ k := fun y hy => by have := hs.1 y hy; omega
      simp only [hx, decide_false, Bool.false_eq_true, not_false_eq_true, List.takeWhile_cons_of_neg,
        List.filter_cons_of_neg, List.dropWhile_cons_of_neg, Bool.not_false, List.filter_cons_of_pos]
      constructor
      · symm; rw [List.filter_eq_nil_iff]; intro y hy; simpa using h1 y hy
      · congr 1; symm; rw [List.filter_eq_self]; intro y hy; simpa using h1 y hy

theorem prolong_ok (old : List (Nat × Nat)) : ∀ (ts : List Traj), (old.map Prod.snd).Nodup →
    (∀ x ∈ old, x.2 < ts.length) →
    ∃ ts', old.foldlM (fun ts l => modifyR ts l.2 (fun tr => tr.pushBack l.1)) ts = .ok ts' ∧
      ts'.length = ts.length ∧
      (∀ tr p, (p, tr) ∈ old → ts'[tr]? = (ts[tr]?).map (fun T => T.pushBack p)) ∧
      (∀ tr, tr ∉ old.map Prod.snd → ts'[tr]? = ts[tr]?) := by
  induction old with
  | nil => intro ts _ _; exact ⟨ts, rfl, rfl, by simp, by simp⟩
  | cons x xs ih =>
    intro ts hn hb
    rw [List.map_cons, List.nodup_cons] at hn
    have hx := hb x (by simp)
    obtain ⟨ts', h1, h2, h3, h4⟩ := ih (ts.modify x.2 (fun tr => tr.pushBack x.1)) hn.2
      (by intro y hy; simpa using hb y (by simp [hy]))
    refine ⟨ts', ?_, by simpa using h2, ?_, ?_⟩
    · rw [List.foldlM_cons, modifyR_ok.2 ⟨hx, rfl⟩]; exact h1
    · intro tr p hp
      rcases List.mem_cons.1 hp with hp | hp
      · subst hp
        rw [h4 tr hn.1]
        simp [List.getElem?_modify]
      · rw [h3 tr p hp]
        have : x.2 ≠ tr := by
          rintro rfl; exact hn.1 (List.mem_map.2 ⟨_, hp, rfl⟩)
        simp [List.getElem?_modify, this]
    · intro tr ht
      simp only [List.map_cons, List.mem_cons, not_or] at ht
      rw [h4 tr ht.2]
      have : x.2 ≠ tr := fun h => ht.1 h.symm
      simp [List.getElem?_modify, this]

theorem foldl_single (new : List (Nat × Nat)) (t : Nat) (ts : List Traj) :
    new.foldl (fun ts l => ts ++ [Traj.single t l.1]) ts = ts ++ new.map (fun l => Traj.single t l.1) := by
  induction new generalizing ts with
  | nil => simp
  | cons x xs ih => simp [ih]

/-- The trajectories `ts` say exactly what the frames `bm` say. -/
def Agree (bm : List Frame) (ts : List Traj) : Prop :=
  ∀ tr t p, posAt ts tr t = some p ↔ ∃ h : t < bm.length, (p, tr) ∈ bm[t]

theorem sorted_eq_range' {l : List Nat} {a k : Nat} (hs : l.Pairwise (· ≤ ·)) (hn : l.Nodup)
    (h : ∀ x, x ∈ l ↔ a ≤ x ∧ x < a + k) : l = List.range' a k := by
  have hp : l.Perm (List.range' a k) := by
    rw [List.perm_ext_iff_of_nodup hn List.nodup_range']
    intro x; rw [h, List.mem_range'_1]
  exact List.Perm.eq_of_pairwise (le := (· ≤ ·)) (by intros; omega) hs (List.pairwise_le_range') hp

theorem addFrame_agree {bm : List Frame} {ts : List Traj} {f : Frame} {nb' : Nat} {n : Nat}
    (hA : Agree bm ts) (hf : TrajMap.FrameOK n nb' f) (hnb : ts.length ≤ nb')
    (hold : ∀ x ∈ f, x.2 < ts.length → ∃ p, posAt ts x.2 (bm.length - 1) = some p)
    (hpos : f ≠ [] → ts ≠ [] → 0 < bm.length)
    (hnew : ∀ tr, ts.length ≤ tr → tr < nb' → tr ∈ f.map Prod.snd) :
    ∃ ts', TrajIndex.addFrame ts bm.length f = .ok ts' ∧ ts'.length = nb' ∧
      Agree (bm ++ [f]) ts' := by
  set old := f.byTraj.filter (fun x => decide (x.2 < ts.length)) with hold_def
  set new := f.byTraj.filter (fun x => !decide (x.2 < ts.length)) with hnew_def
  have hsn : (f.byTraj.map Prod.snd).Nodup := ((Frame.byTraj_perm f).map _).nodup_iff.2 hf.inj.2
  have hold_n : (old.map Prod.snd).Nodup := hsn.sublist (List.filter_sublist.map _)
  have hnew_n : (new.map Prod.snd).Nodup := hsn.sublist (List.filter_sublist.map _)
  have hnew_eq : new.map Prod.snd = List.range' ts.length (nb' - ts.length) := by
    apply sorted_eq_range' _ hnew_n
    · intro x
      constructor
      · intro hx
        rw [List.mem_map] at hx
        obtain ⟨y, hy, rfl⟩ := hx
        simp only [hnew_def, List.mem_filter, Bool.not_eq_true', decide_eq_false_iff_not] at hy
        have := hf.traj y (Frame.mem_byTraj.1 hy.1)
        omega
      · rintro ⟨h1, h2⟩
        obtain ⟨y, hy, rfl⟩ := List.mem_map.1 (hnew x h1 (by omega))
        rw [List.mem_map]
        refine ⟨y, ?_, rfl⟩
        simp only [hnew_def, List.mem_filter, Bool.not_eq_true', decide_eq_false_iff_not]
        exact ⟨Frame.mem_byTraj.2 hy, by omega⟩
    · rw [List.pairwise_map]
      exact (Frame.byTraj_sorted f).sublist List.filter_sublist
  obtain ⟨ts1, h1, h2, h3, h4⟩ := prolong_ok old ts hold_n
    (by intro x hx; simp only [hold_def, List.mem_filter, decide_eq_true_eq] at hx; exact hx.2)
  have hres : TrajIndex.addFrame ts bm.length f = .ok (ts1 ++ new.map (fun l => Traj.single bm.length l.1)) := by
    unfold TrajIndex.addFrame
    by_cases he : ts = []
    · subst he
      have ho : old = [] := by
        rw [hold_def, List.filter_eq_nil_iff]; intro a _; simp
      have hn : new = f.byTraj := by
        rw [hnew_def, List.filter_eq_self]; intro a _; simp
      rw [ho] at h1
      simp only [List.foldlM_nil, pure_eq_ok, Except.ok.injEq] at h1
      subst h1
      rw [hn]
      simp only [List.isEmpty_nil, if_true, List.foldlM_nil, pure_eq_ok, ok_bind, foldl_single]
    · have hl : 0 < ts.length := List.length_pos_iff.2 he
      have hem : ts.isEmpty = false := by simpa using he
      obtain ⟨k1, k2⟩ := takeWhile_eq_filter_of_sorted (ts.length - 1) (Frame.byTraj_sorted f)
      have hpred : ∀ x : Nat × Nat, decide (x.2 ≤ ts.length - 1) = decide (x.2 < ts.length) := by
        intro x; apply decide_eq_decide.2; omega
      simp only [hem, Bool.false_eq_true, if_false]
      rw [k1, k2]
      simp only [hpred]
      rw [← hold_def, ← hnew_def, h1]
      simp only [ok_bind, foldl_single]
      try rfl
  refine ⟨_, hres, ?_, ?_⟩
  · have := congrArg List.length hnew_eq
    simp at this
    simp only [List.length_append, List.length_map, h2, this]
    omega
  · intro tr t p
    by_cases htr : tr < ts.length
    · -- an existing trajectory
      have e1 : (ts1 ++ new.map (fun l => Traj.single bm.length l.1))[tr]? = ts1[tr]? :=
        List.getElem?_append_left (by omega)
      have hT : ts[tr]? = some ts[tr] := by simp [htr]
      by_cases hin : tr ∈ old.map Prod.snd
      · obtain ⟨⟨q, tr'⟩, hq, htr'⟩ := List.mem_map.1 hin
        simp only at htr'; subst htr'
        have hqf : (q, tr') ∈ f := by
          simp only [hold_def, List.mem_filter] at hq; exact Frame.mem_byTraj.1 hq.1
        obtain ⟨p0, hp0⟩ := hold _ hqf htr
        have hb : 0 < bm.length := hpos (List.ne_nil_of_mem hqf) (by rintro rfl; simp at htr)
        -- the trajectory ends exactly at the previous frame
        have hnone : posAt ts tr' bm.length = none := by
          cases hc : posAt ts tr' bm.length with
          | none => rfl
          | some v => obtain ⟨h, -⟩ := (hA tr' bm.length v).1 hc; omega
        have hend : ts[tr'].start + ts[tr'].steps.length = bm.length := by
          unfold posAt at hp0 hnone
          rw [hT] at hp0 hnone
          simp only at hp0 hnone
          split at hp0
          · obtain ⟨g1, -⟩ := List.getElem?_eq_some_iff.1 hp0
            rw [if_pos (by omega)] at hnone
            rw [List.getElem?_eq_none_iff] at hnone
            omega
          · cases hp0
        have e2 : posAt (ts1 ++ new.map (fun l => Traj.single bm.length l.1)) tr' t =
            if t = bm.length then some q else posAt ts tr' t := by
          unfold posAt
          rw [e1, h3 tr' q hq, hT]
          simp only [Option.map_some, Traj.pushBack]
          split
          · rename_i hst
            by_cases ht : t = bm.length
            · subst ht
              rw [if_pos rfl, List.getElem?_append_right (by omega)]
              simp [show bm.length - ts[tr'].start - ts[tr'].steps.length = 0 by omega]
            · rw [if_neg ht]
              by_cases hlt : t < bm.length
              · rw [List.getElem?_append_left (by omega)]
              · rw [List.getElem?_eq_none (by simp; omega), List.getElem?_eq_none (by omega)]
          · rename_i hst
            rw [if_neg (by omega)]
        rw [e2]
        by_cases ht : t = bm.length
        · subst ht
          simp only [if_true, Option.some.injEq, List.length_append, List.length_singleton,
            Nat.lt_add_one, List.getElem_concat_length, exists_true_left]
          constructor
          · rintro rfl; exact hqf
          · intro hpf
            have := List.inj_on_of_nodup_map hf.inj.2 hqf hpf rfl
            exact congrArg Prod.fst this
        · rw [if_neg ht, hA tr' t p]
          constructor
          · rintro ⟨g1, g2⟩
            exact ⟨by simp; omega, by rwa [List.getElem_append_left g1]⟩
          · rintro ⟨g1, g2⟩
            have g1' : t < bm.length := by simp at g1; omega
            exact ⟨g1', by rwa [List.getElem_append_left g1'] at g2⟩
      · have e2 : posAt (ts1 ++ new.map (fun l => Traj.single bm.length l.1)) tr t = posAt ts tr t := by
          unfold posAt; rw [e1, h4 tr hin]
        have hnf : ∀ q, (q, tr) ∉ f := by
          intro q hq
          apply hin
          rw [List.mem_map]
          refine ⟨(q, tr), ?_, rfl⟩
          simp only [hold_def, List.mem_filter, decide_eq_true_eq]
          exact ⟨Frame.mem_byTraj.2 hq, htr⟩
        rw [e2, hA tr t p]
        constructor
        · rintro ⟨g1, g2⟩
          exact ⟨by simp; omega, by rwa [List.getElem_append_left g1]⟩
        · rintro ⟨g1, g2⟩
          by_cases g1' : t < bm.length
          · exact ⟨g1', by rwa [List.getElem_append_left g1'] at g2⟩
          · have : t = bm.length := by simp at g1; omega
            subst this
            rw [List.getElem_concat_length (by rfl)] at g2
            exact absurd g2 (hnf p)
    · -- a new trajectory (or none)
      have e1 : (ts1 ++ new.map (fun l => Traj.single bm.length l.1))[tr]? =
          (new.map (fun l => Traj.single bm.length l.1))[tr - ts.length]? := by
        rw [List.getElem?_append_right (by omega), h2]
      have hno : ∀ t' q, ¬ ∃ h : t' < bm.length, (q, tr) ∈ bm[t'] := by
        intro t' q hc
        have := (hA tr t' q).2 hc
        unfold posAt at this
        rw [List.getElem?_eq_none (by omega)] at this
        cases this
      have hidx : ∀ q, (new[tr - ts.length]? = some (q, tr)) ↔ (q, tr) ∈ f := by
        intro q
        constructor
        · intro h
          have := List.mem_of_getElem? h
          simp only [hnew_def, List.mem_filter] at this
          exact Frame.mem_byTraj.1 this.1
        · intro h
          have hmem : (q, tr) ∈ new := by
            simp only [hnew_def, List.mem_filter, Bool.not_eq_true', decide_eq_false_iff_not]
            exact ⟨Frame.mem_byTraj.2 h, by omega⟩
          obtain ⟨i, hi, hie⟩ := List.getElem_of_mem hmem
          have h5 : (new.map Prod.snd)[i]? = some tr := by simp [hi, hie]
          rw [hnew_eq, List.getElem?_range' (by simpa [← List.length_map (f := Prod.snd), hnew_eq] using hi)] at h5
          simp at h5
          have : tr - ts.length = i := by omega
          rw [this]; simp [hi, hie]
      have hsnd : ∀ x, new[tr - ts.length]? = some x → x.2 = tr := by
        intro x hx
        obtain ⟨hi, -⟩ := List.getElem?_eq_some_iff.1 hx
        have h5 : (new.map Prod.snd)[tr - ts.length]? = some x.2 := by simp [hx]
        rw [hnew_eq, List.getElem?_range' (by simpa [← List.length_map (f := Prod.snd), hnew_eq] using hi)] at h5
        simp at h5
        omega
      have e2 : posAt (ts1 ++ new.map (fun l => Traj.single bm.length l.1)) tr t = some p ↔
          t = bm.length ∧ (p, tr) ∈ f := by
        unfold posAt
        rw [e1, List.getElem?_map]
        cases hx : new[tr - ts.length]? with
        | none =>
          simp only [Option.map_none, reduceCtorEq, false_iff, not_and]
          intro _ hpf
          have := (hidx p).2 hpf
          rw [hx] at this; cases this
        | some x =>
          have hx2 := hsnd x hx
          obtain ⟨q, tr'⟩ := x
          simp only at hx2; subst hx2
          simp only [Option.map_some, Traj.single]
          have hqf := (hidx q).1 hx
          constructor
          · intro h
            split at h
            · obtain ⟨g1, g2⟩ := List.getElem?_eq_some_iff.1 h
              simp at g1
              have ht : t = bm.length := by omega
              subst ht
              simp at g2; subst g2
              exact ⟨rfl, hqf⟩
            · cases h
          · rintro ⟨rfl, hpf⟩
            have := List.inj_on_of_nodup_map hf.inj.2 hqf hpf rfl
            have hqp : q = p := congrArg Prod.fst this
            simp [hqp]
      rw [e2]
      constructor
      · rintro ⟨rfl, h⟩
        exact ⟨by simp, by rwa [List.getElem_concat_length (by rfl)]⟩
      · rintro ⟨g1, g2⟩
        by_cases g1' : t < bm.length
        · rw [List.getElem_append_left g1'] at g2
          exact absurd ⟨g1', g2⟩ (hno t p)
        · have : t = bm.length := by simp at g1; omega
          subst this
          rw [List.getElem_concat_length (by rfl)] at g2
          exact ⟨rfl, g2⟩

/-- The loop of the constructor over the frames of a map. -/
def buildTrajs (bm : List Frame) : R (List Traj) :=
  bm.zipIdx.foldlM (fun ts ft => TrajIndex.addFrame ts ft.2 ft.1) []

theorem buildTrajs_concat {bm f ts ts'} (h : buildTrajs bm = .ok ts)
    (h' : TrajIndex.addFrame ts bm.length f = .ok ts') : buildTrajs (bm ++ [f]) = .ok ts' := by
  unfold buildTrajs at *
  rw [List.zipIdx_append, foldlM_append_ok]
  refine ⟨ts, h, ?_⟩
  simp [h']

theorem build_run {D : Type} [LinearOrder D] {n : Nat} {hist : List (Followers D × Nat)} {tm}
    (h : TrajMap.run n hist = .ok tm) :
    ∃ ts, buildTrajs tm.bm = .ok ts ∧ ts.length = tm.nbTraj ∧ Agree tm.bm ts := by
  induction hist using List.reverseRecOn generalizing tm with
  | nil =>
    have hinv := TrajMap.run_inv h
    simp [TrajMap.run] at h; subst h
    have hf := hinv.frame 0 (by simp [TrajMap.init])
    obtain ⟨ts', h1, h2, h3⟩ := addFrame_agree (bm := []) (ts := [])
      (f := (TrajMap.init n).bm[0]'(by simp [TrajMap.init])) (by intro tr t p; simp [posAt]) hf
      (by simp) (by simp) (by simp)
      (by
        intro tr _ htr
        obtain ⟨t, ht, hm⟩ := hinv.used tr htr
        have : t = 0 := by simp [TrajMap.init] at ht; exact ht
        subst this; exact hm)
    refine ⟨ts', ?_, h2, ?_⟩
    · have := buildTrajs_concat (bm := []) (by rfl) h1
      simpa [TrajMap.init] using this
    · simpa [TrajMap.init] using h3
  | append_singleton l x ih =>
    obtain ⟨tm0, h0, h1⟩ := TrajMap.run_concat.1 h
    obtain ⟨ts, b1, b2, b3⟩ := ih h0
    have hinv0 := TrajMap.run_inv h0
    obtain ⟨last, pot, hl, hp, g1, g2, -, htm⟩ := TrajMap.pushBack_spec h1 hinv0.last_traj
    obtain ⟨-, p2, -⟩ := TrajMap.potentialLinks_ok hp
    have hnew := TrajMap.newFrame_ok (TrajMap.greedy_inj pot) g1 g2
    simp only at hnew htm
    subst htm
    rw [backR_ok, List.getLast?_eq_getElem?] at hl
    obtain ⟨hl1, hl2⟩ := List.getElem?_eq_some_iff.1 hl
    obtain ⟨ts', k1, k2, k3⟩ := addFrame_agree b3 hnew (by omega)
      (by
        intro y hy hyt
        rw [b2] at hyt
        rcases List.mem_append.1 hy with hy | hy
        · obtain ⟨d, hd⟩ := TrajMap.greedy_sub pot hy
          obtain ⟨p, row, m1, -, -⟩ := (p2 d y.1 y.2).1 hd
          refine ⟨p, (b3 _ _ _).2 ⟨hl1, ?_⟩⟩
          rw [hl2]; exact m1
        · have := List.le_snd_of_mem_zipIdx hy
          omega)
      (by intro _ _; exact hinv0.pos)
      (by
        intro tr t1 t2
        rw [List.map_append, TrajMap.zipIdx_snd, List.mem_append]
        right
        rw [List.mem_range'_1]
        omega)
    exact ⟨ts', buildTrajs_concat b1 k1, k2, k3⟩

/-- Facts on each stored trajectory that follow from the agreement with the frames. -/
theorem agree_traj {bm : List Frame} {ts : List Traj} (hA : Agree bm ts)
    (hu : ∀ tr, tr < ts.length → ∃ t, ∃ h : t < bm.length, tr ∈ (bm[t]).map Prod.snd)
    {tr : Nat} {T : Traj} (hT : ts[tr]? = some T) :
    T.steps ≠ [] ∧ T.start + T.steps.length ≤ bm.length ∧
    ∀ t p, (T.start ≤ t ∧ T.steps[t - T.start]? = some p) ↔ ∃ h : t < bm.length, (p, tr) ∈ bm[t] := by
  have key : ∀ t p, (T.start ≤ t ∧ T.steps[t - T.start]? = some p) ↔
      ∃ h : t < bm.length, (p, tr) ∈ bm[t] := by
    intro t p
    rw [← hA tr t p]
    unfold posAt; rw [hT]
    simp only
    split <;> simp_all
  have hne : T.steps ≠ [] := by
    obtain ⟨htr, -⟩ := List.getElem?_eq_some_iff.1 hT
    obtain ⟨t, ht, hm⟩ := hu tr htr
    obtain ⟨⟨p, tr'⟩, hp, rfl⟩ := List.mem_map.1 hm
    obtain ⟨h1, h2⟩ := (key t p).2 ⟨ht, hp⟩
    rintro h; rw [h] at h2; simp at h2
  refine ⟨hne, ?_, key⟩
  have hl : 0 < T.steps.length := List.length_pos_iff.2 hne
  obtain ⟨h, -⟩ := (key (T.start + (T.steps.length - 1)) T.steps[T.steps.length - 1]).1
    ⟨by omega, by
      rw [show T.start + (T.steps.length - 1) - T.start = T.steps.length - 1 by omega]
      simp [hl]⟩
  omega

/-! ### The inverse index -/

/-- Invariant while writing the inverse index. -/
structure InvRows (sizes : List Nat) (inv : List (List Nat)) : Prop where
  rows : inv.map List.length = sizes

theorem inv_write_one {bm : List Frame} {T : Traj} {i : Nat}
    (hne : T.steps ≠ []) (hb : T.start + T.steps.length ≤ szMod)
    (key : ∀ t p, (T.start ≤ t ∧ T.steps[t - T.start]? = some p) ↔ ∃ h : t < bm.length, (p, i) ∈ bm[t])
    {sizes : List Nat} (hs : sizes.length = bm.length)
    (hpos : ∀ t (h : t < bm.length), ∀ x ∈ bm[t], x.1 < sizes[t]'(hs ▸ h)) :
    ∀ (l : List Nat), (∀ t ∈ l, T.start ≤ t ∧ t < T.start + T.steps.length) →
    ∀ inv, inv.map List.length = sizes →
    ∃ inv', l.foldlM (fun inv t => do
        let row ← getR inv t
        let p ← T.at_ t
        let row' ← setR row p i
        setR inv t row') inv = .ok inv' ∧ inv'.map List.length = sizes ∧
      (∀ (t p : Nat), t ∈ l → (∃ h : t < bm.length, (p, i) ∈ bm[t]) → (inv'[t]?.bind (fun (r : List Nat) => r[p]?)) = some i) ∧
      (∀ (t p : Nat), (¬ ∃ h : t < bm.length, (p, i) ∈ bm[t]) →
        (inv'[t]?.bind (fun (r : List Nat) => r[p]?)) = (inv[t]?.bind (fun (r : List Nat) => r[p]?))) ∧
      (∀ (t p : Nat), (inv[t]?.bind (fun (r : List Nat) => r[p]?)) = some i → (inv'[t]?.bind (fun (r : List Nat) => r[p]?)) = some i) := by
  intro l
  induction l with
  | nil => intro _ inv hinv; exact ⟨inv, rfl, hinv, by simp, by simp, by simp⟩
  | cons t l ih =>
    intro hl inv hinv
    obtain ⟨ht1, ht2⟩ := hl t (by simp)
    have hstep : T.steps[t - T.start]? = some (T.steps[t - T.start]'(by omega)) := by
      simp [show t - T.start < T.steps.length by omega]
    set p := T.steps[t - T.start]'(by omega) with hp
    obtain ⟨htb, hmem⟩ := (key t p).1 ⟨ht1, hstep⟩
    have hlen : inv.length = sizes.length := by rw [← hinv]; simp
    have hrow : t < inv.length := by omega
    have hrl : (inv[t]).length = sizes[t]'(by omega) := by
      have : (inv.map List.length)[t]? = sizes[t]? := by rw [hinv]
      rw [List.getElem?_map] at this
      simp [hrow, show t < sizes.length by omega] at this
      exact this
    have hpl : p < (inv[t]).length := by rw [hrl]; exact hpos t htb _ hmem
    have hinv1 : (inv.set t ((inv[t]).set p i)).map List.length = sizes := by
      rw [List.map_set, hinv, List.length_set, hrl]
      simp
    obtain ⟨inv', h1, h2, h3, h4, h5⟩ := ih (fun t ht => hl t (by simp [ht])) _ hinv1
    have hset : ∀ (t' p' : Nat), ((inv.set t ((inv[t]).set p i))[t']?.bind (fun (r : List Nat) => r[p']?)) =
        if t' = t ∧ p' = p then some i else (inv[t']?.bind (fun (r : List Nat) => r[p']?)) := by
      intro t' p'
      rw [List.getElem?_set]
      by_cases htt : t = t'
      · subst htt
        simp only [if_true, hrow, Option.bind_some, true_and, List.getElem?_set,
          List.getElem?_eq_getElem]
        by_cases hpp : p = p'
        · subst hpp; simp [hpl]
        · rw [if_neg hpp, if_neg (fun h => hpp h.symm)]
      · rw [if_neg htt, if_neg (fun h => htt h.1.symm)]
    refine ⟨inv', ?_, h2, ?_, ?_, ?_⟩
    · rw [List.foldlM_cons]
      rw [getR_of_lt hrow]
      simp only [ok_bind]
      rw [(at_eq hne hb).2 ⟨ht1, hstep⟩]
      simp only [ok_bind]
      rw [setR_ok.2 ⟨hpl, rfl⟩]
      simp only [ok_bind]
      rw [setR_ok.2 ⟨hrow, rfl⟩]
      exact h1
    · intro t' p' ht' hm
      rcases List.mem_cons.1 ht' with rfl | ht'
      · obtain ⟨g1, g2⟩ := (key t' p').2 hm
        have : p' = p := by rw [hstep] at g2; exact (Option.some.inj g2).symm
        apply h5
        rw [hset, if_pos ⟨rfl, this⟩]
      · exact h3 t' p' ht' hm
    · intro t' p' hm
      rw [h4 t' p' hm, hset, if_neg]
      rintro ⟨rfl, rfl⟩
      exact hm ⟨htb, hmem⟩
    · intro t' p' hm
      apply h5
      rw [hset]
      split <;> simp_all

theorem makeInverse_ok {bm : List Frame} {ts : List Traj} {sizes : List Nat} {nb : Nat}
    (hA : Agree bm ts)
    (hu : ∀ tr, tr < ts.length → ∃ t, ∃ h : t < bm.length, tr ∈ (bm[t]).map Prod.snd)
    (hb : bm.length ≤ szMod) (hs : sizes.length = bm.length)
    (hf : ∀ t (h : t < bm.length), TrajMap.FrameOK (sizes[t]'(hs ▸ h)) nb bm[t]) :
    ∃ inv, TrajIndex.makeInverse ts sizes = .ok inv ∧ inv.map List.length = sizes ∧
      ∀ t p tr, (inv[t]?.bind (fun (r : List Nat) => r[p]?)) = some tr ↔ ∃ h : t < bm.length, (p, tr) ∈ bm[t] := by
  have hpos : ∀ t (h : t < bm.length), ∀ x ∈ bm[t], x.1 < sizes[t]'(hs ▸ h) := by
    intro t h x hx
    exact ((hf t h).pos x.1).1 (List.mem_map.2 ⟨x, hx, rfl⟩)
  have loop : ∀ m, m ≤ ts.length → ∃ inv,
      (List.range m).foldlM (fun inv i => do
        let tr ← getR ts i
        (TrajIndex.times tr).foldlM (fun inv t => do
          let row ← getR inv t
          let p ← tr.at_ t
          let row' ← setR row p i
          setR inv t row') inv)
      (sizes.map fun n => List.replicate n 0) = .ok inv ∧ inv.map List.length = sizes ∧
      ∀ t p tr, tr < m → (∃ h : t < bm.length, (p, tr) ∈ bm[t]) → (inv[t]?.bind (fun (r : List Nat) => r[p]?)) = some tr := by
    intro m
    induction m with
    | zero =>
      intro _
      refine ⟨sizes.map fun n => List.replicate n 0, by simp, ?_, by simp⟩
      simp [List.map_map, Function.comp_def]
    | succ m ih =>
      intro hm
      obtain ⟨inv, i1, i2, i3⟩ := ih (by omega)
      have hT : ts[m]? = some ts[m] := by simp [show m < ts.length by omega]
      obtain ⟨t1, t2, t3⟩ := agree_traj hA hu hT
      obtain ⟨inv', j1, j2, j3, j4, -⟩ := inv_write_one t1 (le_trans t2 hb) t3 hs hpos
        (List.range' ts[m].start ts[m].steps.length)
        (by intro t ht; rw [List.mem_range'_1] at ht; exact ht) inv i2
      refine ⟨inv', ?_, j2, ?_⟩
      · rw [List.range_succ, foldlM_append_ok]
        refine ⟨inv, i1, ?_⟩
        rw [List.foldlM_cons, getR_ok.2 hT]
        simp only [ok_bind, List.foldlM_nil]
        rw [times_eq t1 (le_trans t2 hb), j1]
        simp only [ok_bind, pure_eq_ok]
      · intro t p tr htr hm'
        by_cases htm : tr = m
        · subst htm
          apply j3 t p _ hm'
          obtain ⟨g1, g2⟩ := (t3 t p).2 hm'
          obtain ⟨g3, -⟩ := List.getElem?_eq_some_iff.1 g2
          rw [List.mem_range'_1]; omega
        · rw [j4]
          · exact i3 t p tr (by omega) hm'
          · rintro ⟨g1, g2⟩
            obtain ⟨g1', g2'⟩ := hm'
            have := List.inj_on_of_nodup_map (hf t g1).inj.1 g2 g2' rfl
            exact htm (congrArg Prod.snd this).symm
  obtain ⟨inv, h1, h2, h3⟩ := loop ts.length (le_refl _)
  refine ⟨inv, h1, h2, ?_⟩
  intro t p tr
  constructor
  · intro h
    have hlen : inv.length = bm.length := by rw [← hs, ← h2]; simp
    cases hrow : inv[t]? with
    | none => rw [hrow] at h; simp at h
    | some row =>
      rw [hrow] at h
      simp only [Option.bind_some] at h
      obtain ⟨ht, hrow'⟩ := List.getElem?_eq_some_iff.1 hrow
      obtain ⟨hp, -⟩ := List.getElem?_eq_some_iff.1 h
      have ht' : t < bm.length := by omega
      have hrl : row.length = sizes[t]'(by omega) := by
        have : (inv.map List.length)[t]? = sizes[t]? := by rw [h2]
        rw [List.getElem?_map, hrow] at this
        simp [show t < sizes.length by omega] at this
        exact this
      have := ((hf t ht').pos p).2 (by omega)
      obtain ⟨⟨p', tr'⟩, hm, hpe⟩ := List.mem_map.1 this
      simp only at hpe; subst hpe
      have hA' : posAt ts tr' t = some p' := (hA tr' t p').2 ⟨ht', hm⟩
      have htr' : tr' < ts.length := by
        by_contra hc
        unfold posAt at hA'
        rw [List.getElem?_eq_none (by omega)] at hA'
        cases hA'
      have := h3 t p' tr' htr' ⟨ht', hm⟩
      rw [hrow] at this
      simp only [Option.bind_some] at this
      rw [h] at this
      have : tr = tr' := Option.some.inj this
      subst this
      exact ⟨ht', hm⟩
  · rintro ⟨ht, hm⟩
    have hA' : posAt ts tr t = some p := (hA tr t p).2 ⟨ht, hm⟩
    have htr' : tr < ts.length := by
      by_contra hc
      unfold posAt at hA'
      rw [List.getElem?_eq_none (by omega)] at hA'
      cases hA'
    exact h3 t p tr htr' ⟨ht, hm⟩

end Colloids
