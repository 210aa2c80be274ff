import Verif.Py.LinkerAdd

/-! # What `update` does to a linker -/

namespace Colloids
namespace Py
namespace Linker

theorem upd_fold {α β : Type} (key : α → Nat) (act : α → β → β) (xs : List α) (l : List β) (hnd : (xs.map key).Nodup)
    (hlt : ∀ x ∈ xs, key x < l.length) :
    ∃ r, xs.foldlM (fun l x => upd l (key x) (act x)) l = .ok r ∧ r.length = l.length ∧
      (∀ x ∈ xs, r[key x]? = l[key x]?.map (act x)) ∧ ∀ i, i ∉ xs.map key → r[i]? = l[i]? := by
  induction xs using List.reverseRecOn with
  | nil => exact ⟨l, rfl, rfl, by simp, by simp⟩
  | append_singleton xs a ih =>
    rw [List.map_append, List.nodup_append] at hnd
    obtain ⟨r, h1, h2, h3, h4⟩ := ih hnd.1 fun x hx => hlt x (by simp [hx])
    have ha : key a < r.length := by rw [h2]; exact hlt a (by simp)
    have hne : ∀ x ∈ xs, key x ≠ key a := fun x hx => hnd.2.2 _ (List.mem_map_of_mem hx) _ (by simp)
    refine ⟨r.modify (key a) (act a), ?_, by simpa using h2, ?_, ?_⟩
    · rw [List.foldlM_append, h1]
      simp [upd, ha]
    · intro x hx
      rw [List.getElem?_modify]
      rcases List.mem_append.1 hx with hx | hx
      · rw [h3 x hx]
        simp [(hne x hx).symm]
      · have : x = a := by simpa using hx
        subst this
        rw [h4 (key x) (by
          intro hm
          obtain ⟨y, hy, hk⟩ := List.mem_map.1 hm
          exact hne y hy hk)]
        simp
    · intro i hi
      rw [List.map_append, List.mem_append, not_or] at hi
      have : key a ≠ i := by
        intro h; exact hi.2 (by simp [h])
      rw [List.getElem?_modify, h4 i hi.1]
      simp [this]

theorem mark_fold {α : Type} (key : α → Nat) (xs : List α) (n : Nat) (hlt : ∀ x ∈ xs, key x < n) :
    xs.foldlM (fun f x => upd f (key x) fun _ => true) (List.replicate n false) =
      .ok ((List.range n).map fun i => decide (∃ x ∈ xs, key x = i)) := by
  induction xs using List.reverseRecOn with
  | nil =>
    rw [List.foldlM_nil, replicate_map]
    simp only [List.not_mem_nil, false_and, exists_false, decide_false, pure_eq_ok]
  | append_singleton xs a ih =>
    rw [List.foldlM_append, ih fun x hx => hlt x (by simp [hx])]
    have ha := hlt a (by simp)
    simp only [List.foldlM_cons, List.foldlM_nil, ok_bind, upd, List.length_map, List.length_range, ha, if_true, pure_eq_ok,
      get_mapModify]
    congr 1
    apply List.map_congr_left
    intro i _
    by_cases h : i = key a
    · subst h; simp
    · simp [h, Ne.symm h]

theorem idx_mapRange {α : Type} {n : Nat} {g : Nat → α} {i : Nat} (h : i < n) : idx ((List.range n).map g) i = .ok (g i) := by
  unfold idx
  rw [get_mapRange, if_pos h]

theorem filter_fold (P : Nat → Nat × Nat) (g f : List Nat) (nb : Nat) (o : List Nat)
    (ho : ∀ i ∈ o, (P i).1 < nb ∧ (P i).2 < f.length) :
    (o.map P).foldlM filterStep ((List.range nb).map fun i => decide (∃ x ∈ g, x = i), f.map fun tr => decide (tr < nb), []) =
      .ok ((List.range nb).map fun tr => decide ((∃ x ∈ g, x = tr) ∨
            ∃ i ∈ picks P (o.filter fun i => decide ((P i).1 ∉ g ∧ nb ≤ f.getD (P i).2 0)), (P i).1 = tr),
          (List.range f.length).map fun p => decide (f.getD p 0 < nb ∨
            ∃ i ∈ picks P (o.filter fun i => decide ((P i).1 ∉ g ∧ nb ≤ f.getD (P i).2 0)), (P i).2 = p),
          (picks P (o.filter fun i => decide ((P i).1 ∉ g ∧ nb ≤ f.getD (P i).2 0))).map P) := by
  induction o using List.reverseRecOn with
  | nil =>
    simp only [List.map_nil, List.foldlM_nil, pure_eq_ok, List.filter_nil, picks, List.foldl_nil, List.not_mem_nil, false_and,
      exists_false, or_false]
    congr 2
    congr 1
    apply List.ext_getElem?
    intro i
    rw [get_mapRange, List.getElem?_map]
    by_cases h : i < f.length <;> simp [h]
  | append_singleton o x ih =>
    have ih := ih fun i hi => ho i (by simp [hi])
    obtain ⟨hx1, hx2⟩ := ho x (by simp)
    rw [List.map_append, List.foldlM_append, ih]
    simp only [List.map_cons, List.map_nil, List.foldlM_cons, List.foldlM_nil, ok_bind]
    rw [List.filter_append]
    set M := picks P (o.filter fun i => decide ((P i).1 ∉ g ∧ nb ≤ f.getD (P i).2 0)) with hM
    unfold filterStep
    dsimp only
    rw [idx_mapRange hx1]
    simp only [ok_bind]
    by_cases hok : (P x).1 ∉ g ∧ nb ≤ f.getD (P x).2 0
    · have hfx : [x].filter (fun i => decide ((P i).1 ∉ g ∧ nb ≤ f.getD (P i).2 0)) = [x] := by
        rw [List.filter_cons, if_pos (by simpa using hok)]; rfl
      rw [hfx, picks_append, ← hM]
      have hg : ¬ ∃ y ∈ g, y = (P x).1 := by rintro ⟨y, hy, rfl⟩; exact hok.1 hy
      have hf : ¬ f.getD (P x).2 0 < nb := by omega
      by_cases hc : ∃ j ∈ M, Clash (P j) (P x)
      · rw [if_pos hc]
        by_cases h1 : ∃ i ∈ M, (P i).1 = (P x).1
        · have : decide ((∃ y ∈ g, y = (P x).1) ∨ ∃ i ∈ M, (P i).1 = (P x).1) = true := by simp [h1]
          rw [this]
          simp
        · have h2 : ∃ i ∈ M, (P i).2 = (P x).2 := by
            obtain ⟨j, hj, h | h⟩ := hc
            · exact absurd ⟨j, hj, h⟩ h1
            · exact ⟨j, hj, h⟩
          have e1 : decide ((∃ y ∈ g, y = (P x).1) ∨ ∃ i ∈ M, (P i).1 = (P x).1) = false := by
            rw [decide_eq_false_iff_not]; rintro (h | h)
            · exact hg h
            · exact h1 h
          rw [e1]
          simp only [Bool.false_eq_true, if_false]
          rw [idx_mapRange hx2]
          have e2 : decide (f.getD (P x).2 0 < nb ∨ ∃ i ∈ M, (P i).2 = (P x).2) = true := by simp only [h2, or_true, decide_true]
          rw [e2]
          simp
      · rw [if_neg hc]
        have e1 : decide ((∃ y ∈ g, y = (P x).1) ∨ ∃ i ∈ M, (P i).1 = (P x).1) = false := by
          rw [decide_eq_false_iff_not]; rintro (h | ⟨j, hj, h⟩)
          · exact hg h
          · exact hc ⟨j, hj, Or.inl h⟩
        have e2 : decide (f.getD (P x).2 0 < nb ∨ ∃ i ∈ M, (P i).2 = (P x).2) = false := by
          rw [decide_eq_false_iff_not]; rintro (h | ⟨j, hj, h⟩)
          · exact hf h
          · exact hc ⟨j, hj, Or.inr h⟩
        rw [e1]
        simp only [Bool.false_eq_true, if_false]
        rw [idx_mapRange hx2, e2]
        simp only [ok_bind, Bool.false_eq_true, if_false, upd, List.length_map, List.length_range, hx1, hx2, if_true, get_mapModify,
          pure_eq_ok]
        congr 2
        · apply List.map_congr_left
          intro tr _
          by_cases h : tr = (P x).1
          · subst h; simp
          · simp [h, Ne.symm h]
        · congr 1
          · apply List.map_congr_left
            intro p _
            by_cases h : p = (P x).2
            · subst h; simp
            · simp [h, Ne.symm h]
          · simp
    · have hfx : [x].filter (fun i => decide ((P i).1 ∉ g ∧ nb ≤ f.getD (P i).2 0)) = [] := by
        rw [List.filter_cons, if_neg (by simpa using hok)]; rfl
      rw [hfx, List.append_nil, ← hM]
      by_cases h1 : (∃ y ∈ g, y = (P x).1) ∨ ∃ i ∈ M, (P i).1 = (P x).1
      · rw [decide_eq_true h1]
        simp
      · rw [decide_eq_false h1]
        simp only [Bool.false_eq_true, if_false]
        rw [idx_mapRange hx2]
        have h2 : f.getD (P x).2 0 < nb ∨ ∃ i ∈ M, (P i).2 = (P x).2 := by
          left
          by_contra hc
          exact hok ⟨fun h => h1 (Or.inl ⟨_, h, rfl⟩), by omega⟩
        rw [decide_eq_true h2]
        simp

theorem posOf_more (g h : List Nat) (tr : Nat) :
    posOf (g ++ h) tr = posOf g tr ++ (posOf h tr).map fun k => g.length + k := by
  induction h using List.reverseRecOn with
  | nil => simp [posOf]
  | append_singleton h x ih =>
    rw [← List.append_assoc, posOf_append, ih, posOf_append]
    by_cases hx : x = tr <;> simp [hx]

theorem newOf_more (g h : List Nat) (n : Nat) (hh : ∀ x ∈ h, x < n) : newOf (g ++ h) n = newOf g n := by
  induction h using List.reverseRecOn with
  | nil => simp
  | append_singleton h x ih =>
    have hx := hh x (by simp)
    rw [← List.append_assoc, newOf_append, ih fun y hy => hh y (by simp [hy]), if_neg (by omega), List.append_nil]

theorem Loadable.more {l : Linker} {g h prev : List Nat} (hg : l.Loadable g) (hprev : l.pos2tr.getLast? = some prev)
    (hlt : ∀ tr ∈ prev, tr < l.trajstart.length) (hh : ∀ tr ∈ h, tr ∈ prev) (hnd : h.Nodup) (hdis : ∀ tr ∈ h, tr ∉ g) :
    l.Loadable (g ++ h) := by
  have hn : ∀ x ∈ h, x < l.trajstart.length := fun x hx => hlt x (hh x hx)
  refine ⟨?_, ?_, ?_⟩
  · rw [List.filter_append, List.nodup_append]
    refine ⟨hg.once, hnd.filter _, ?_⟩
    intro a ha b hb hab
    subst hab
    exact hdis a (List.mem_filter.1 hb).1 (List.mem_filter.1 ha).1
  · intro tr htr hlt'
    rcases List.mem_append.1 htr with h1 | h1
    · exact hg.old tr h1 hlt'
    · exact ⟨prev, hprev, hh tr h1⟩
  · have : h.filter (l.trajstart.length ≤ ·) = [] := by
      rw [List.filter_eq_nil_iff]
      intro x hx
      have := hn x hx
      simpa using this
    rw [List.filter_append, this, List.append_nil]
    exact hg.fresh

theorem getD_get {l : List Nat} {i : Nat} (h : i < l.length) : l[i]? = some (l.getD i 0) := by
  rw [List.getElem?_eq_getElem h, List.getD_eq_getElem _ _ h]

theorem update_eq {G : Type} {argsort : List G → List Nat} {l : Linker} (hb : Built l) {g f prev : List Nat} (hg : l.Loadable g)
    (hf : (ext l g).Loadable f) (hprev : l.pos2tr.getLast? = some prev) {pairs : List (Nat × Nat)} {ds : List G}
    (hlen : pairs.length = ds.length) (hord : ∀ i ∈ argsort ds, i < pairs.length)
    (hval : ∀ x ∈ pairs, x.2 < f.length ∧ (x.1 ∈ g ∨ x.1 ∈ prev)) {M : List Nat}
    (hM : M = picks (fun i => pairs.getD i (0, 0)) ((argsort ds).filter fun i =>
      decide ((pairs.getD i (0, 0)).1 ∉ g ∧ (ext l g).trajstart.length ≤ f.getD (pairs.getD i (0, 0)).2 0))) (hne : M ≠ []) :
    ∃ (links : List (Nat × Nat)) (f' : List Nat), links.Perm (M.map fun i => pairs.getD i (0, 0)) ∧
      update argsort (ext (ext l g) f) pairs ds = .ok (ext (ext l (g ++ links.map (·.1))) f',
        (List.range (ext (ext l (g ++ links.map (·.1))) f').trajstart.length).map fun tr => decide (∃ x ∈ links, x.1 = tr)) ∧
      l.Loadable (g ++ links.map (·.1)) ∧ (ext l (g ++ links.map (·.1))).Loadable f' ∧ f'.length = f.length ∧
      (∀ x ∈ links, f'[x.2]? = some x.1) ∧
      (∀ q tr : Nat, f[q]? = some tr → tr < (ext l g).trajstart.length → f'[q]? = some tr) ∧
      ∀ q, q < f.length → (ext l g).trajstart.length ≤ f.getD q 0 → (∀ x ∈ links, x.2 ≠ q) →
        ∃ tr, f'[q]? = some tr ∧ (ext l g).trajstart.length ≤ tr := by
  have hl := hb.good
  have hl0 := ext_good hl hg
  set P : Nat → Nat × Nat := fun i => pairs.getD i (0, 0) with hP
  set o := argsort ds with ho
  set l0 := ext l g with hl0d
  set nb := l0.trajstart.length with hnb
  set n := l.trajstart.length with hn
  have hnbn : nb = n + (newOf g n).length := by simp [hnb, hl0d, ext, hn]
  have hltp : ∀ tr ∈ prev, tr < n := by
    intro tr htr
    obtain ⟨p, hp⟩ := List.mem_iff_getElem?.1 htr
    exact at_lt hl (last_at hprev hp)
  have hlast0 : l0.pos2tr.getLast? = some g := by simp [hl0d, ext]
  have hltg : ∀ tr ∈ g, tr < nb := by
    intro tr htr
    obtain ⟨p, hp⟩ := List.mem_iff_getElem?.1 htr
    exact at_lt hl0 (last_at hlast0 hp)
  have hPo : ∀ i ∈ o, (P i).1 < nb ∧ (P i).2 < f.length ∧ ((P i).1 ∈ g ∨ (P i).1 ∈ prev) := by
    intro i hi
    have hm : P i ∈ pairs := by
      show pairs.getD i (0, 0) ∈ pairs
      rw [List.getD_eq_getElem _ _ (hord i hi)]
      exact List.getElem_mem _
    have := hval _ hm
    refine ⟨?_, this.1, this.2⟩
    rcases this.2 with h | h
    · exact hltg _ h
    · have := hltp _ h; omega
  have hMin : ∀ i ∈ M, (P i).1 ∈ prev ∧ (P i).1 ∉ g ∧ (P i).2 < f.length ∧ nb ≤ f.getD (P i).2 0 := by
    intro i hi
    rw [hM] at hi
    have h1 := picks_sub _ _ i hi
    rw [List.mem_filter, decide_eq_true_iff] at h1
    obtain ⟨_, h3, h4⟩ := hPo i h1.1
    refine ⟨?_, h1.2.1, h3, h1.2.2⟩
    rcases h4 with h | h
    · exact absurd h h1.2.1
    · exact h
  have hMap : ∀ i ∈ M, ∀ j ∈ M, Clash (P i) (P j) → i = j := by
    intro i hi j hj hc
    rw [hM] at hi hj
    exact picks_apart P _ hi hj hc
  have hMnd : M.Nodup := by
    rw [hM]
    refine (picks_pairwise P _).imp ?_
    intro a b h hab
    exact h (by rw [hab]; exact Or.inl rfl)
  set links := (M.map P).mergeSort fun x y => decide (x.1 ≤ y.1) with hlinks
  have hperm : links.Perm (M.map P) := List.mergeSort_perm _ _
  have hmem : ∀ x, x ∈ links ↔ ∃ i ∈ M, P i = x := by
    intro x; rw [hperm.mem_iff, List.mem_map]
  have hfst : (links.map (·.1)).Nodup := by
    rw [(hperm.map (·.1)).nodup_iff, List.map_map]
    refine hMnd.map_on ?_
    intro i hi j hj h
    exact hMap i hi j hj (Or.inl h)
  have hsnd : (links.map (·.2)).Nodup := by
    rw [(hperm.map (·.2)).nodup_iff, List.map_map]
    refine hMnd.map_on ?_
    intro i hi j hj h
    exact hMap i hi j hj (Or.inr h)
  have hlinkprop : ∀ x ∈ links, x.1 ∈ prev ∧ x.1 ∉ g ∧ x.2 < f.length ∧ nb ≤ f.getD x.2 0 := by
    intro x hx
    obtain ⟨i, hi, rfl⟩ := (hmem x).1 hx
    exact hMin i hi
  set g' := g ++ links.map (·.1) with hg'
  have hg'load : l.Loadable g' := by
    refine hg.more hprev hltp ?_ hfst ?_
    · intro tr htr
      obtain ⟨x, hx, rfl⟩ := List.mem_map.1 htr
      exact (hlinkprop x hx).1
    · intro tr htr
      obtain ⟨x, hx, rfl⟩ := List.mem_map.1 htr
      exact (hlinkprop x hx).2.1
  have hnew' : newOf g' n = newOf g n := newOf_more _ _ _ (by
    intro tr htr
    obtain ⟨x, hx, rfl⟩ := List.mem_map.1 htr
    exact hltp _ (hlinkprop x hx).1)
  set l1 := ext l g' with hl1
  have hl1good : l1.Good := ext_good hl hg'load
  have hst1 : l1.trajstart = l0.trajstart := by
    simp only [hl1, hl0d, ext, ← hn, hnew']
  have hlast1 : l1.pos2tr.getLast? = some g' := by simp [hl1, ext]
  -- the used positions
  set toUsed : List Bool := (List.range f.length).map fun p => decide (f.getD p 0 < nb ∨ ∃ i ∈ M, (P i).2 = p) with htoUsed
  set nu := notUsed toUsed with hnu
  have hnumem : ∀ q, q ∈ nu ↔ q < f.length ∧ nb ≤ f.getD q 0 ∧ ∀ x ∈ links, x.2 ≠ q := by
    intro q
    rw [hnu, notUsed, List.mem_filter, List.mem_range, htoUsed, get_mapRange]
    simp only [List.length_map, List.length_range]
    constructor
    · rintro ⟨h1, h2⟩
      rw [if_pos h1, decide_eq_true_iff, Option.some.injEq, decide_eq_false_iff_not, not_or] at h2
      refine ⟨h1, by omega, ?_⟩
      intro x hx h
      obtain ⟨i, hi, rfl⟩ := (hmem x).1 hx
      exact h2.2 ⟨i, hi, h⟩
    · rintro ⟨h1, h2, h3⟩
      rw [if_pos h1, decide_eq_true_iff, Option.some.injEq, decide_eq_false_iff_not, not_or]
      refine ⟨h1, by omega, ?_⟩
      rintro ⟨i, hi, h⟩
      exact h3 (P i) ((hmem _).2 ⟨i, hi, rfl⟩) h
  have hnd : nu.Nodup := List.nodup_range.filter _
  obtain ⟨c1, hc1, hc1l, hc1a, hc1b⟩ := upd_fold (fun x : Nat × Nat => x.2) (fun x _ => x.1) links f hsnd
    fun x hx => (hlinkprop x hx).2.2.1
  obtain ⟨f', hf1, hf2, hf3, hf4⟩ := number_ok nb nu c1 hnd fun q hq => by rw [hc1l]; exact ((hnumem q).1 hq).1
  rw [hc1l] at hf2
  have hFlink : ∀ x ∈ links, f'[x.2]? = some x.1 := by
    intro x hx
    have hp := hlinkprop x hx
    rw [hf4 _ (fun h => ((hnumem _).1 h).2.2 x hx rfl), hc1a x hx, getD_get hp.2.2.1]
    rfl
  have hFold : ∀ q tr : Nat, f[q]? = some tr → tr < nb → f'[q]? = some tr := by
    intro q tr hq htr
    have hql := (List.getElem?_eq_some_iff.1 hq).1
    have hgd : f.getD q 0 = tr := by simp [List.getD, hq]
    rw [hf4 q (fun h => by have := ((hnumem _).1 h).2.1; omega), hc1b q, hq]
    intro hm
    obtain ⟨x, hx, h⟩ := List.mem_map.1 hm
    have h4 := (hlinkprop x hx).2.2.2
    have h : x.2 = q := h
    rw [h] at h4; omega
  have hFnew : ∀ q, q < f.length → nb ≤ f.getD q 0 → (∀ x ∈ links, x.2 ≠ q) → ∃ tr, f'[q]? = some tr ∧ nb ≤ tr := by
    intro q h1 h2 h3
    obtain ⟨i, hi⟩ := List.mem_iff_getElem?.1 ((hnumem q).2 ⟨h1, h2, h3⟩)
    exact ⟨nb + i, hf3 i q hi, by omega⟩
  have hcase : ∀ q tr : Nat, f'[q]? = some tr → (tr < nb ∧ f[q]? = some tr) ∨ (tr < nb ∧ (tr, q) ∈ links) ∨
      (nb ≤ tr ∧ q < f.length ∧ nb ≤ f.getD q 0 ∧ ∀ x ∈ links, x.2 ≠ q) := by
    intro q tr hq
    have hql : q < f.length := by rw [← hf2]; exact (List.getElem?_eq_some_iff.1 hq).1
    by_cases h1 : f.getD q 0 < nb
    · left
      have := hFold q _ (getD_get hql) h1
      rw [hq] at this
      cases this
      exact ⟨h1, getD_get hql⟩
    · by_cases h2 : ∃ x ∈ links, x.2 = q
      · obtain ⟨x, hx, rfl⟩ := h2
        right; left
        have := hFlink x hx
        rw [hq] at this
        cases this
        have := hltp _ (hlinkprop x hx).1
        exact ⟨by omega, hx⟩
      · have h3 : ∀ x ∈ links, x.2 ≠ q := fun x hx h => h2 ⟨x, hx, h⟩
        obtain ⟨tr', e1, e2⟩ := hFnew q hql (by omega) h3
        rw [hq] at e1; cases e1
        exact Or.inr (Or.inr ⟨e2, hql, by omega, h3⟩)
  -- links are trajectories that are not in the two last frames
  have hnotf : ∀ x ∈ links, x.1 ∉ f := by
    intro x hx hm
    have hlt := hltp _ (hlinkprop x hx).1
    obtain ⟨k, hk1, hk2⟩ := hf.old x.1 hm (by omega)
    rw [hlast0] at hk1
    cases hk1
    exact (hlinkprop x hx).2.1 hk2
  have hfinj : ∀ p q tr : Nat, tr < nb → f[p]? = some tr → f[q]? = some tr → p = q := by
    intro p q tr htr hp hq
    have := posOf_unique hf.once htr hp
    have h2 := mem_posOf.2 hq
    rw [this] at h2
    exact (List.mem_singleton.1 h2).symm
  have hlinkinj : ∀ tr p q, (tr, p) ∈ links → (tr, q) ∈ links → p = q := by
    intro tr p q h1 h2
    obtain ⟨i, hi, e1⟩ := (hmem _).1 h1
    obtain ⟨j, hj, e2⟩ := (hmem _).1 h2
    have : i = j := hMap i hi j hj (Or.inl (by rw [e1, e2]))
    subst this
    rw [e1] at e2
    exact (Prod.mk.inj e2).2
  have honce : ∀ p q tr : Nat, tr < nb → f'[p]? = some tr → f'[q]? = some tr → p = q := by
    intro p q tr htr hp hq
    rcases hcase p tr hp with ⟨_, h1⟩ | ⟨_, h1⟩ | ⟨h1, _⟩
    · rcases hcase q tr hq with ⟨_, h2⟩ | ⟨_, h2⟩ | ⟨h2, _⟩
      · exact hfinj p q tr htr h1 h2
      · exact absurd (List.mem_of_getElem? h1) (hnotf _ h2)
      · omega
    · rcases hcase q tr hq with ⟨_, h2⟩ | ⟨_, h2⟩ | ⟨h2, _⟩
      · exact absurd (List.mem_of_getElem? h2) (hnotf _ h1)
      · exact hlinkinj tr p q h1 h2
      · omega
    · omega
  have hnewOf : newOf f' nb = nu := by
    rw [newOf, hf2, hnu, notUsed, htoUsed]
    simp only [List.length_map, List.length_range]
    apply List.filter_congr
    intro q hq
    have hqs := List.mem_range.1 hq
    rw [get_mapRange, if_pos hqs]
    have htr : f'[q]? = some (f'.getD q 0) := getD_get (by omega)
    rw [Bool.eq_iff_iff, decide_eq_true_iff, decide_eq_true_iff, Option.some.injEq, decide_eq_false_iff_not, not_or]
    rcases hcase q _ htr with ⟨h1, h2⟩ | ⟨h1, h2⟩ | ⟨h1, h2, h3, h4⟩
    · have : f.getD q 0 = f'.getD q 0 := by simp only [List.getD, h2, Option.getD_some]
      rw [this]; omega
    · obtain ⟨i, hi, e⟩ := (hmem _).1 h2
      constructor
      · intro h; omega
      · intro h; exact absurd ⟨i, hi, by rw [e]⟩ h.2
    · constructor
      · intro _
        refine ⟨by omega, ?_⟩
        rintro ⟨i, hi, h⟩
        exact h4 (P i) ((hmem _).2 ⟨i, hi, rfl⟩) h
      · intro _; exact h1
  have hload : l1.Loadable f' := by
    have hst : l1.trajstart.length = nb := by rw [hst1]
    refine loadable_of hl1good hlast1 (nu := nu) ?_ ?_ ?_ ?_
    · rw [hst]; exact hf3
    · rw [hst]; exact hnewOf
    · rw [hst]
      intro q tr hq htr
      have : tr ∈ g' := by
        rw [hg', List.mem_append]
        rcases hcase q tr hq with ⟨_, h1⟩ | ⟨_, h1⟩ | ⟨h1, _⟩
        · left
          obtain ⟨k, hk1, hk2⟩ := hf.old tr (List.mem_of_getElem? h1) (by omega)
          rw [hlast0] at hk1
          cases hk1
          exact hk2
        · right; exact List.mem_map.2 ⟨_, h1, rfl⟩
        · omega
      exact List.mem_iff_getElem?.1 this
    · rw [hst]; exact honce
  have hMne : (M.map P).isEmpty = false := by
    cases hc : M with
    | nil => exact absurd hc hne
    | cons a r => rfl
  -- the trajectories that grow
  have hkeys : links.zipIdx.map (fun x => x.1.1) = links.map (·.1) := by
    have : links.zipIdx.map (fun x => x.1.1) = (links.zipIdx.map Prod.fst).map (·.1) := by rw [List.map_map]; rfl
    rw [this, List.zipIdx_map_fst]
  set tp0 : List (List Nat) := (List.range nb).map fun tr => l0.tr2pos.getD tr [] ++ posOf f tr with htp0
  obtain ⟨tp, htp1, htp2, htp3, htp4⟩ := upd_fold (fun x : (Nat × Nat) × Nat => x.1.1) (fun x s => s ++ [g.length + x.2, x.1.2])
    links.zipIdx tp0 (by rw [hkeys]; exact hfst) (by
      intro x hx
      have hx1 : x.1 ∈ links := by
        have := List.mem_zipIdx hx
        rw [this.2.2]; exact List.getElem_mem _
      have := hltp _ (hlinkprop _ hx1).1
      simp only [htp0, List.length_map, List.length_range]
      omega)
  have htpeq : tp = (List.range nb).map fun tr => l1.tr2pos.getD tr [] ++ posOf f' tr := by
    apply List.ext_getElem?
    intro tr
    rw [get_mapRange]
    by_cases htr : tr < nb
    · rw [if_pos htr]
      have hget0 : ∀ (k : List Nat), newOf k n = newOf g n → (ext l k).tr2pos[tr]? = some (((ext l k).tr2pos.getD tr [])) := by
        intro k hk
        have : tr < (ext l k).tr2pos.length := by
          rw [(ext_sized k hl.toSized).tr2pos]
          simp only [ext, List.length_append, List.length_map, ← hn, hk]
          omega
        rw [List.getElem?_eq_getElem this, List.getD_eq_getElem _ _ this]
      have h0 : l0.tr2pos.getD tr [] = if tr < n then l.tr2pos.getD tr [] ++ posOf g tr else
          (((newOf g n)[tr - n]?.map fun q => [q]).getD []) := by
        have := ext_steps l g tr
        rw [List.getD_eq_getElem?_getD, hl0d, this, ← hn]
        split <;> rfl
      have h1 : l1.tr2pos.getD tr [] = if tr < n then l.tr2pos.getD tr [] ++ posOf g' tr else
          (((newOf g n)[tr - n]?.map fun q => [q]).getD []) := by
        have := ext_steps l g' tr
        rw [List.getD_eq_getElem?_getD, hl1, this, ← hn, hnew']
        split <;> rfl
      by_cases hlk : ∃ p, (tr, p) ∈ links
      · obtain ⟨p, hp⟩ := hlk
        obtain ⟨k, hk⟩ := List.mem_iff_getElem?.1 hp
        have hzi : ((tr, p), k) ∈ links.zipIdx := List.mem_zipIdx_iff_getElem?.2 hk
        have htn : tr < n := hltp _ (hlinkprop _ hp).1
        have e1 := htp3 _ hzi
        have e1 : tp[tr]? = tp0[tr]?.map fun s => s ++ [g.length + k, p] := e1
        rw [e1, htp0, get_mapRange, if_pos htr]
        have hnf : posOf f tr = [] := posOf_nil (hnotf _ hp)
        have hpf' : posOf f' tr = [p] := posOf_unique (n := nb) (filter_nodup honce) htr (hFlink _ hp)
        have hpg' : posOf g' tr = [g.length + k] := by
          have h2 : g'[g.length + k]? = some tr := by
            rw [hg', List.getElem?_append_right (by omega), Nat.add_sub_cancel_left, List.getElem?_map, hk]; rfl
          exact posOf_unique hg'load.once htn h2
        have hpg : posOf g tr = [] := posOf_nil (hlinkprop _ hp).2.1
        rw [hpf', h1, h0, if_pos htn, if_pos htn, hpg', hpg, hnf]
        simp
      · have e1 : tp[tr]? = tp0[tr]? := by
          apply htp4
          rw [hkeys]
          intro hm
          obtain ⟨x, hx, h⟩ := List.mem_map.1 hm
          exact hlk ⟨x.2, by rw [← h]; exact hx⟩
        rw [e1, htp0, get_mapRange, if_pos htr]
        congr 1
        have hpg : posOf g' tr = posOf g tr := by
          rw [hg', posOf_more, posOf_nil (f := links.map (·.1))]
          · simp
          · intro hm
            obtain ⟨x, hx, h⟩ := List.mem_map.1 hm
            exact hlk ⟨x.2, by rw [← h]; exact hx⟩
        rw [h0, h1, hpg]
        congr 1
        apply small_eq
        · exact List.nodup_range.filter _
        · exact List.nodup_range.filter _
        · intro x hx y hy
          exact hfinj x y tr htr (mem_posOf.1 hx) (mem_posOf.1 hy)
        · intro q
          rw [mem_posOf, mem_posOf]
          constructor
          · intro h; exact hFold q tr h htr
          · intro h
            rcases hcase q tr h with ⟨_, h1⟩ | ⟨_, h1⟩ | ⟨h1, _⟩
            · exact h1
            · exact absurd ⟨q, h1⟩ hlk
            · omega
    · rw [if_neg htr, List.getElem?_eq_none]
      rw [htp2, htp0]; simp; omega
  refine ⟨links, f', hperm, ?_, hg'load, hload, hf2, hFlink, hFold, hFnew⟩
  have hT : (ext l0 f).pos2tr.length = l.pos2tr.length + 2 := by simp [ext, hl0d]
  have hTpos : 0 < l.pos2tr.length := by
    cases hc : l.pos2tr with
    | nil => rw [hc] at hprev; simp at hprev
    | cons a r => simp
  have hnbl : (ext l0 f).nbtrajs = l.nbtrajs ++ [nb, nb + (newOf f nb).length] := by
    simp [ext, hl0d, hnb]
  have hp2 : (ext l0 f).pos2tr = l.pos2tr ++ [g, f] := by simp [ext, hl0d]
  have hfr := hl.frames
  unfold update
  have hT2 : 2 < (ext l0 f).pos2tr.length := by omega
  rw [if_neg (by rw [decide_eq_true hT2]; decide), if_neg (by simpa using hlen), ← ho, arrange_ok pairs o hord]
  simp only [ok_bind]
  have i1 : idx (ext l0 f).nbtrajs ((ext l0 f).nbtrajs.length - 2) = .ok nb := by
    rw [hnbl]
    unfold idx
    rw [show (l.nbtrajs ++ [nb, nb + (newOf f nb).length]).length - 2 = l.nbtrajs.length by simp,
      List.getElem?_append_right (le_refl _)]
    simp
  have i2 : idx (ext l0 f).pos2tr ((ext l0 f).pos2tr.length - 2) = .ok g := by
    rw [hp2]
    unfold idx
    rw [show (l.pos2tr ++ [g, f]).length - 2 = l.pos2tr.length by simp, List.getElem?_append_right (le_refl _)]
    simp
  have i3 : idx (ext l0 f).pos2tr ((ext l0 f).pos2tr.length - 1) = .ok f := by
    rw [hp2]
    unfold idx
    rw [show (l.pos2tr ++ [g, f]).length - 1 = l.pos2tr.length + 1 by simp, List.getElem?_append_right (by omega)]
    simp
  rw [i1, i2, i3]
  simp only [ok_bind]
  rw [mark_fold (fun x : Nat => x) g nb hltg]
  simp only [ok_bind]
  have hff := filter_fold P g f nb o fun i hi => ⟨(hPo i hi).1, (hPo i hi).2.1⟩
  rw [← hM] at hff
  rw [hff]
  simp only [ok_bind]
  rw [hMne, if_neg (by simp), ← hlinks, hc1]
  simp only [ok_bind]
  have htake : (ext l0 f).tr2pos.take nb = tp0 := by
    simp only [ext, ← hnb]
    rw [List.take_append_of_le_length (by simp), List.take_of_length_le (by simp)]
  rw [htake, htp1]
  simp only [ok_bind]
  rw [← htoUsed, ← hnu, hf1]
  simp only [ok_bind]
  have htake2 : (ext l0 f).trajstart.take nb = l0.trajstart := by
    simp only [ext]
    rw [List.take_append_of_le_length (le_refl _), List.take_of_length_le (le_refl _)]
  rw [htake2]
  have hstart' : (ext l1 f').trajstart = l0.trajstart ++ nu.map fun _ => (ext l0 f).pos2tr.length - 1 := by
    have h1 : (ext l1 f').trajstart = l1.trajstart ++ (newOf f' l1.trajstart.length).map fun _ => l1.pos2tr.length := rfl
    rw [h1, hst1, ← hnb, hnewOf]
    have : l1.pos2tr.length = (ext l0 f).pos2tr.length - 1 := by rw [hT]; simp [hl1, ext]
    rw [this]
  rw [← hstart']
  rw [mark_fold (fun x : Nat × Nat => x.1) links (ext l1 f').trajstart.length (by
    intro x hx
    have h1 := hltp _ (hlinkprop x hx).1
    rw [hstart']; simp only [List.length_append, List.length_map]; omega)]
  simp only [ok_bind, pure_eq_ok]
  congr 2
  have hlen1 : (ext l1 f').trajstart.length = nb + nu.length := by rw [hstart']; simp [hnb]
  have E1 : (ext l1 f').tr2pos = tp ++ nu.map fun p => [p] := by
    have h1 : (ext l1 f').tr2pos = ((List.range l1.trajstart.length).map fun tr => l1.tr2pos.getD tr [] ++ posOf f' tr) ++
      (newOf f' l1.trajstart.length).map fun q => [q] := rfl
    rw [h1, hst1, ← hnb, hnewOf, htpeq]
  have E2 : (ext l1 f').pos2tr = ((ext l0 f).pos2tr.set ((ext l0 f).pos2tr.length - 2) (g ++ links.map (·.1))).set
      ((ext l0 f).pos2tr.length - 1) f' := by
    have h1 : (ext l1 f').pos2tr = l.pos2tr ++ [g', f'] := by simp [hl1, ext]
    rw [h1, hT, hp2, show l.pos2tr.length + 2 - 2 = l.pos2tr.length by omega,
      show l.pos2tr.length + 2 - 1 = l.pos2tr.length + 1 by omega, List.set_append_right _ _ (le_refl _),
      List.set_append_right _ _ (by omega)]
    simp [hg']
  have E3 : (ext l1 f').nbtrajs = (ext l0 f).nbtrajs.set ((ext l0 f).nbtrajs.length - 1) (ext l1 f').trajstart.length := by
    have h1 : (ext l1 f').nbtrajs = l1.nbtrajs ++ [l1.trajstart.length + (newOf f' l1.trajstart.length).length] := rfl
    have h2 : l1.nbtrajs = l.nbtrajs ++ [nb] := by
      simp only [hl1, ext, ← hn, hnew', hnbn]
    rw [h1, hst1, ← hnb, hnewOf, h2, hnbl, hlen1]
    rw [show (l.nbtrajs ++ [nb, nb + (newOf f nb).length]).length - 1 = l.nbtrajs.length + 1 by simp,
      List.set_append_right _ _ (by omega)]
    simp
  rw [← E1, ← E2, ← E3]

end Linker
end Py
end Colloids
