import Verif.Traj.IndexLemmas

/-! # Helper lemmas for the queries of `TrajIndex` -/

namespace Colloids

theorem countP_eq_range_filter {α : Type} (q : α → Bool) (l : List α) :
    l.countP q = ((List.range l.length).filter (fun i => (l[i]?).any q)).length := by
  induction l using List.reverseRecOn with
  | nil => simp
  | append_singleton l a ih =>
    rw [List.countP_append, List.length_append, List.length_singleton, List.range_succ,
      List.filter_append, List.length_append, ih]
    congr 1
    · congr 1
      apply List.filter_congr
      intro i hi
      rw [List.getElem?_append_left (List.mem_range.1 hi)]
    · simp [List.countP_singleton, List.filter_singleton]
      split <;> simp_all

/-- Does the trajectory cover time `t`? -/
def Traj.covers (t : Nat) (T : Traj) : Bool :=
  decide (T.start ≤ t) && decide (t < T.start + T.steps.length)

theorem bump_times (l : List Nat) (hn : l.Nodup) : ∀ (s : List Nat), (∀ t ∈ l, t < s.length) →
    ∃ s', l.foldlM (fun s t => modifyR s t (· + 1)) s = .ok s' ∧ s'.length = s.length ∧
      ∀ t : Nat, s'[t]? = (s[t]?).map (fun n => n + (if t ∈ l then 1 else 0)) := by
  induction l with
  | nil => intro s _; exact ⟨s, by simp, rfl, by simp⟩
  | cons a l ih =>
    intro s hs
    rw [List.nodup_cons] at hn
    obtain ⟨s', h1, h2, h3⟩ := ih hn.2 (s.modify a (· + 1))
      (by intro t ht; simpa using hs t (by simp [ht]))
    refine ⟨s', ?_, by simpa using h2, ?_⟩
    · rw [List.foldlM_cons, modifyR_ok.2 ⟨hs a (by simp), rfl⟩, ok_bind]
      exact h1
    · intro t
      rw [h3 t, List.getElem?_modify]
      by_cases hta : a = t
      · subst hta
        simp [hn.1, Function.comp_def]
      · have : ¬ t = a := fun h => hta h.symm
        simp [hta, this]

theorem bump_all (n : Nat) (hn : n ≤ szMod) (ts : List Traj)
    (hts : ∀ T ∈ ts, T.steps ≠ [] ∧ T.start + T.steps.length ≤ n) :
    ∀ s : List Nat, s.length = n →
    ∃ s', ts.foldlM (fun sizes tr =>
      (TrajIndex.times tr).foldlM (fun s t => modifyR s t (· + 1)) sizes) s = .ok s' ∧
      s'.length = n ∧ ∀ t : Nat, s'[t]? = (s[t]?).map (fun k => k + ts.countP (Traj.covers t)) := by
  induction ts with
  | nil => intro s hs; exact ⟨s, by simp, hs, by simp⟩
  | cons T ts ih =>
    intro s hs
    obtain ⟨t1, t2⟩ := hts T (by simp)
    obtain ⟨s1, h1, h2, h3⟩ := bump_times (TrajIndex.times T)
      (by rw [times_eq t1 (le_trans t2 hn)]; exact List.nodup_range') s
      (by
        rw [times_eq t1 (le_trans t2 hn)]
        intro t ht; rw [List.mem_range'_1] at ht; omega)
    obtain ⟨s', k1, k2, k3⟩ := ih (fun T hT => hts T (by simp [hT])) s1 (by omega)
    refine ⟨s', ?_, k2, ?_⟩
    · rw [List.foldlM_cons, h1, ok_bind]; exact k1
    · intro t
      rw [k3 t, h3 t, times_eq t1 (le_trans t2 hn)]
      rw [Option.map_map]
      congr 1
      funext k
      simp only [Function.comp, List.mem_range'_1, List.countP_cons, Traj.covers, Bool.and_eq_true,
        decide_eq_true_eq]
      omega

theorem countP_covers {bm : List Frame} {ts : List Traj} (hA : Agree bm ts) {n nb t : Nat}
    (h : t < bm.length) (hf : TrajMap.FrameOK n nb bm[t]) :
    ts.countP (Traj.covers t) = (bm[t]).length := by
  rw [countP_eq_range_filter, ← List.length_map (as := bm[t]) (f := Prod.snd)]
  apply List.Perm.length_eq
  rw [List.perm_ext_iff_of_nodup (List.nodup_range.filter _) hf.inj.2]
  intro tr
  have hcov : ((ts[tr]?).any (Traj.covers t) = true) ↔ ∃ p, posAt ts tr t = some p := by
    unfold posAt
    cases ts[tr]? with
    | none => simp
    | some T =>
      simp only [Option.any_some, Traj.covers, Bool.and_eq_true, decide_eq_true_eq]
      constructor
      · rintro ⟨h1, h2⟩
        rw [if_pos h1]
        exact ⟨T.steps[t - T.start]'(by omega), by simp [show t - T.start < T.steps.length by omega]⟩
      · rintro ⟨p, hp⟩
        split at hp
        · obtain ⟨g, -⟩ := List.getElem?_eq_some_iff.1 hp
          omega
        · cases hp
  rw [List.mem_filter, hcov, List.mem_range]
  constructor
  · rintro ⟨-, p, hp⟩
    obtain ⟨_, hm⟩ := (hA tr t p).1 hp
    exact List.mem_map.2 ⟨_, hm, rfl⟩
  · intro hm
    obtain ⟨⟨p, tr'⟩, hm', rfl⟩ := List.mem_map.1 hm
    have hp : posAt ts tr' t = some p := (hA tr' t p).2 ⟨h, hm'⟩
    refine ⟨?_, p, hp⟩
    by_contra hc
    unfold posAt at hp
    rw [List.getElem?_eq_none (by omega)] at hp
    cases hp

theorem foldl_max_spec {α : Type} (f : α → Nat) (l : List α) : ∀ a,
    (∀ x ∈ l, f x ≤ l.foldl (fun m x => if m < f x then f x else m) a) ∧
    a ≤ l.foldl (fun m x => if m < f x then f x else m) a ∧
    (l.foldl (fun m x => if m < f x then f x else m) a = a ∨
      ∃ x ∈ l, l.foldl (fun m x => if m < f x then f x else m) a = f x) := by
  induction l with
  | nil => intro a; simp
  | cons x l ih =>
    intro a
    obtain ⟨h1, h2, h3⟩ := ih (if a < f x then f x else a)
    simp only [List.foldl_cons]
    refine ⟨?_, ?_, ?_⟩
    · intro y hy
      rcases List.mem_cons.1 hy with rfl | hy
      · split at h2 <;> (rename_i hc; simp only [hc, if_true, if_false]; omega)
      · exact h1 y hy
    · split at h2 <;> (rename_i hc; simp only [hc, if_true, if_false]; omega)
    · rcases h3 with h3 | ⟨y, hy, h3⟩
      · rw [h3]
        by_cases hc : a < f x
        · right; exact ⟨x, by simp, by simp [hc]⟩
        · left; simp [hc]
      · right; exact ⟨y, by simp [hy], h3⟩

section maps
variable {T : Type}

theorem mapInsert_mem_of_fresh (k : Nat) (v : T) (m : List (Nat × T)) (h : k ∉ m.map Prod.fst) :
    (TrajIndex.mapInsert k v m).Perm ((k, v) :: m) := by
  induction m with
  | nil => simp [TrajIndex.mapInsert]
  | cons x xs ih =>
    simp only [List.map_cons, List.mem_cons, not_or] at h
    unfold TrajIndex.mapInsert
    rw [if_neg h.1]
    split
    · exact .refl _
    · exact ((ih h.2).cons x).trans (List.Perm.swap _ _ _)

theorem mapInsert_sorted (k : Nat) (v : T) (m : List (Nat × T))
    (h : m.Pairwise (fun a b => a.1 < b.1)) :
    (TrajIndex.mapInsert k v m).Pairwise (fun a b => a.1 < b.1) := by
  have key : ∀ m : List (Nat × T), ∀ y ∈ TrajIndex.mapInsert k v m, y = (k, v) ∨ y ∈ m := by
    intro m
    induction m with
    | nil => simp [TrajIndex.mapInsert]
    | cons x xs ih =>
      intro y hy
      unfold TrajIndex.mapInsert at hy
      split at hy
      · simpa using hy
      · split at hy
        · exact .inr hy
        · rcases List.mem_cons.1 hy with rfl | hy
          · simp
          · rcases ih y hy with h | h <;> simp [h]
  induction m with
  | nil => simp [TrajIndex.mapInsert]
  | cons x xs ih =>
    have h0 := h
    rw [List.pairwise_cons] at h
    unfold TrajIndex.mapInsert
    split
    · rename_i hx
      rw [List.pairwise_cons]
      refine ⟨?_, h0⟩
      intro y hy
      rcases List.mem_cons.1 hy with rfl | hy
      · exact hx
      · exact lt_trans hx (h.1 y hy)
    · split
      · exact h0
      · rename_i h1 h2
        rw [List.pairwise_cons]
        refine ⟨?_, ih h.2⟩
        intro y hy
        rcases key xs y hy with rfl | hy
        · simp; omega
        · exact h.1 y hy

/-- Fold of `insert` over distinct keys. -/
theorem mapInsert_foldl (l : List (Nat × T)) : ∀ m : List (Nat × T),
    (l.map Prod.fst).Nodup → (∀ k ∈ l.map Prod.fst, k ∉ m.map Prod.fst) →
    m.Pairwise (fun a b => a.1 < b.1) →
    (l.foldl (fun acc kv => TrajIndex.mapInsert kv.1 kv.2 acc) m).Perm (l ++ m) ∧
    (l.foldl (fun acc kv => TrajIndex.mapInsert kv.1 kv.2 acc) m).Pairwise (fun a b => a.1 < b.1) := by
  induction l with
  | nil => intro m _ _ h; simpa using h
  | cons x xs ih =>
    intro m hn hd hs
    simp only [List.map_cons, List.nodup_cons] at hn
    have hfresh := hd x.1 (by simp)
    have hp := mapInsert_mem_of_fresh x.1 x.2 m hfresh
    obtain ⟨h1, h2⟩ := ih (TrajIndex.mapInsert x.1 x.2 m) hn.2
      (by
        intro k hk
        rw [(hp.map Prod.fst).mem_iff]
        simp only [List.map_cons, List.mem_cons, not_or]
        exact ⟨fun h => hn.1 (h ▸ hk), hd k (by simp only [List.map_cons, List.mem_cons]; exact Or.inr hk)⟩)
      (mapInsert_sorted _ _ _ hs)
    refine ⟨?_, h2⟩
    rw [List.foldl_cons]
    refine h1.trans ?_
    refine (hp.append_left xs).trans ?_
    simpa using (List.perm_middle (a := x) (l₁ := xs) (l₂ := m))

theorem foldlM_conv (f : Nat → Option Nat) (step : List (Nat × T) → Nat × T → R (List (Nat × T)))
    (l : List (Nat × T))
    (hstep : ∀ acc, ∀ kv ∈ l, step acc kv =
      .ok (match f kv.1 with | some k => TrajIndex.mapInsert k kv.2 acc | none => acc)) :
    ∀ acc, l.foldlM step acc = .ok ((l.filterMap (fun kv => (f kv.1).map (fun k => (k, kv.2)))).foldl
      (fun acc kv => TrajIndex.mapInsert kv.1 kv.2 acc) acc) := by
  induction l with
  | nil => intro acc; simp
  | cons x xs ih =>
    intro acc
    rw [List.foldlM_cons, hstep acc x (by simp), ok_bind,
      ih (fun acc kv hkv => hstep acc kv (by simp [hkv]))]
    cases hx : f x.1 <;> simp [hx]

theorem filterMap_conv (f : Nat → Option Nat) (hinj : ∀ a b c, f a = some c → f b = some c → a = b)
    (l : List (Nat × T)) (hl : l.Pairwise (fun a b => a.1 < b.1)) :
    let r := (l.filterMap (fun kv => (f kv.1).map (fun k => (k, kv.2)))).foldl
      (fun acc kv => TrajIndex.mapInsert kv.1 kv.2 acc) []
    r.Pairwise (fun a b => a.1 < b.1) ∧
      ∀ c v, (c, v) ∈ r ↔ ∃ a, (a, v) ∈ l ∧ f a = some c := by
  intro r
  set l' := l.filterMap (fun kv => (f kv.1).map (fun k => (k, kv.2))) with hl'
  have hmem : ∀ c v, (c, v) ∈ l' ↔ ∃ a, (a, v) ∈ l ∧ f a = some c := by
    intro c v
    rw [hl', List.mem_filterMap]
    constructor
    · rintro ⟨⟨a, w⟩, h1, h2⟩
      simp only [Option.map_eq_some_iff, Prod.mk.injEq] at h2
      obtain ⟨k, h3, rfl, rfl⟩ := h2
      exact ⟨a, h1, h3⟩
    · rintro ⟨a, h1, h2⟩
      exact ⟨(a, v), h1, by simp [h2]⟩
  have hnd : (l'.map Prod.fst).Nodup := by
    rw [hl', List.map_filterMap]
    have : l.Pairwise (fun a b => a.1 ≠ b.1) := hl.imp (fun h => by omega)
    apply List.Pairwise.filterMap _ _ this
    intro a b hab c hc d hd hcd
    simp only [Option.map_map, Option.mem_def, Option.map_eq_some_iff, Function.comp] at hc hd
    obtain ⟨c', h1, rfl⟩ := hc
    obtain ⟨d', h2, rfl⟩ := hd
    subst hcd
    exact hab (hinj _ _ _ h1 h2)
  obtain ⟨h1, h2⟩ := mapInsert_foldl l' [] hnd (by simp) (by simp)
  refine ⟨h2, ?_⟩
  intro c v
  rw [← hmem]
  simpa using h1.mem_iff (a := (c, v))

theorem sorted_ext {l l' : List (Nat × T)} (h : l.Pairwise (fun a b => a.1 < b.1))
    (h' : l'.Pairwise (fun a b => a.1 < b.1)) (hm : ∀ c v, (c, v) ∈ l ↔ (c, v) ∈ l') : l = l' := by
  have hn : l.Nodup := h.imp (fun hlt he => by rw [he] at hlt; omega)
  have hn' : l'.Nodup := h'.imp (fun hlt he => by rw [he] at hlt; omega)
  have hp : l.Perm l' := (List.perm_ext_iff_of_nodup hn hn').2 (fun x => hm x.1 x.2)
  exact List.Perm.eq_of_pairwise (le := fun a b => a.1 < b.1) (by intros; omega) h h' hp

end maps

end Colloids
