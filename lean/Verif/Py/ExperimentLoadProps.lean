import Verif.Py.ExperimentTrajProps

/-! # The positions of all the trajectories in python -/

namespace Colloids
namespace Py
namespace Exp

/-- All the positions are in a trajectory. -/
def Complete (nb : List Nat) (trajs : List (Nat × List Nat)) : Prop := ∀ t n p, nb[t]? = some n → p < n → ∃ tr, At trajs t p tr

/-- The only exception of a step is `IndexError`. -/
theorem loadStep_error {starts : List Nat} {t : Nat} {pos : List V} {m : List (List V)} {x : Nat × Nat} {e : Fault}
    (h : loadStep starts t pos m x = .error e) : e = .outOfRange := by
  unfold loadStep at h
  have hidx : ∀ {α : Type} (l : List α) (i : Nat), (∃ a, idx l i = .ok a) ∨ idx l i = .error .outOfRange := by
    intro α l i
    unfold idx
    cases l[i]? with
    | none => exact .inr rfl
    | some a => exact .inl ⟨a, rfl⟩
  rcases hidx pos x.2 with ⟨v, h1⟩ | h1
  · rw [h1, ok_bind] at h
    rcases hidx m x.1 with ⟨row, h2⟩ | h2
    · rw [h2, ok_bind] at h
      rcases hidx starts x.1 with ⟨s, h3⟩ | h3
      · rw [h3, ok_bind] at h
        cases h4 : pyIndex row.length ((t : Int) - s) with
        | ok i => rw [h4, ok_bind] at h; exact put_error _ _ _ _ _ h
        | error e' =>
          rw [h4, error_bind] at h
          unfold pyIndex at h4
          split_ifs at h4 <;> cases h4 <;> exact (Except.error.inj h).symm
      · rw [h3, error_bind] at h; exact (Except.error.inj h).symm
    · rw [h2, error_bind] at h; exact (Except.error.inj h).symm
  · rw [h1, error_bind] at h; exact (Except.error.inj h).symm

theorem loadStep_lengths {starts : List Nat} {t : Nat} {pos : List V} {m m' : List (List V)} {x : Nat × Nat}
    (h : loadStep starts t pos m x = .ok m') : m'.map List.length = m.map List.length := by
  unfold loadStep at h
  obtain ⟨_, _, h⟩ := bind_ok.1 h
  obtain ⟨_, _, h⟩ := bind_ok.1 h
  obtain ⟨_, _, h⟩ := bind_ok.1 h
  obtain ⟨_, _, h⟩ := bind_ok.1 h
  exact put_lengths h

theorem fold_keeps {α β : Type} {f : β → α → R β} {I : β → Prop} (hI : ∀ s x s', I s → f s x = .ok s' → I s') (l : List α) {s s' : β} (hs : I s)
    (h : l.foldlM f s = .ok s') : I s' := by
  induction l generalizing s with
  | nil => cases h; exact hs
  | cons x l ih =>
    rw [List.foldlM_cons] at h
    obtain ⟨s1, h1, h2⟩ := bind_ok.1 h
    exact ih (hI s x s1 hs h1) h2

theorem fold_error {α β : Type} {f : β → α → R β} {e : Fault} (he : ∀ s x e', f s x = .error e' → e' = e) (l : List α) {s : β} {e' : Fault}
    (h : l.foldlM f s = .error e') : e' = e := by
  induction l generalizing s with
  | nil => cases h
  | cons x l ih =>
    rw [List.foldlM_cons] at h
    cases hx : f s x with
    | error e'' =>
      rw [hx, error_bind] at h
      rw [← Except.error.inj h]
      exact he s x e'' hx
    | ok s' =>
      rw [hx, ok_bind] at h
      exact ih h

/-- The steps of a loop that are writes at places that do not depend on what was written. -/
theorem fold_puts {α β : Type} (f : List (List β) → α → R (List (List β))) (lens : List Nat) (w : α → Nat × Nat × β) (l : List α)
    (hf : ∀ x ∈ l, ∀ m, m.map List.length = lens → f m x = put m (w x).1 (w x).2.1 (w x).2.2) (m : List (List β)) (hm : m.map List.length = lens) :
    l.foldlM f m = putAll m (l.map w) := by
  induction l generalizing m with
  | nil => rfl
  | cons x l ih =>
    unfold putAll
    rw [List.foldlM_cons, List.map_cons, List.foldlM_cons, hf x (by simp) m hm]
    cases hp : put m (w x).1 (w x).2.1 (w x).2.2 with
    | error e => rfl
    | ok m' =>
      rw [ok_bind, ok_bind]
      exact ih (fun y hy => hf y (by simp [hy])) m' (by rw [put_lengths hp, hm])

/-- C165. For an experiment whose first time is 0 and whose positions are all in a trajectory, `load_all` gives the position of each
trajectory at each time. -/
theorem C165_load_all_partial {frames : List (List V)} {trajs : List (Nat × List Nat)} (hc : Consistent (frames.map List.length) trajs)
    (hall : Complete (frames.map List.length) trajs) :
    ∃ m, loadAll 0 (frames.map List.length) trajs frames = .ok m ∧ m.map List.length = trajs.map (fun T => T.2.length)
      ∧ ∀ tr T dt p, trajs[tr]? = some T → T.2[dt]? = some p → get2 m tr dt = get2 frames (T.1 + dt) p := by
  classical
  obtain ⟨a, ha1, ha2, ha3, -⟩ := pos2tr_ok hc
  -- the array of each time
  have hrow : ∀ (k : Nat) (f : List V), frames[k]? = some f → ∃ row, a[k]? = some row ∧ row.length = f.length := by
    intro k f hf
    have : (a.map List.length)[k]? = some f.length := by rw [ha2, List.getElem?_map, hf]; rfl
    rw [List.getElem?_map, Option.map_eq_some_iff] at this
    exact this
  -- the writes
  let ws : List V × Nat → List (Nat × Nat × V) := fun f =>
    ((a[f.2]?.getD []).zipIdx.map fun x => (x.1, f.2 - (trajs[x.1]?.getD (0, [])).1, f.1[x.2]?.getD 0))
  have hws : ∀ f ∈ frames.zipIdx, ∀ y, y ∈ ws f ↔ ∃ p T dt, trajs[y.1]? = some T ∧ T.2[dt]? = some p ∧ f.2 = T.1 + dt ∧ y.2.1 = dt ∧ f.1[p]? = some y.2.2 := by
    rintro ⟨f, k⟩ hf ⟨tr, i, v⟩
    have hf' : frames[k]? = some f := by simpa [List.mem_zipIdx_iff_getElem?] using hf
    obtain ⟨row, hr, hl⟩ := hrow k f hf'
    simp only [ws, hr, Option.getD_some, List.mem_map, Prod.mk.injEq]
    constructor
    · rintro ⟨⟨u, p⟩, hx, rfl, rfl, rfl⟩
      have hx : row[p]? = some u := by simpa [List.mem_zipIdx_iff_getElem?] using hx
      have hp : p < f.length := by
        have := (List.getElem?_eq_some_iff.1 hx).1
        omega
      obtain ⟨tr, T, dt, h1, h2, h3⟩ := hall k f.length p (by rw [List.getElem?_map, hf']; rfl) hp
      have := ha3 k p tr ⟨T, dt, h1, h2, h3⟩
      unfold get2 at this
      rw [hr] at this
      have hu : u = tr := by
        have : row[p]? = some tr := this
        rw [hx] at this
        exact Option.some.inj this
      subst hu
      refine ⟨p, T, dt, h1, h2, h3, ?_, ?_⟩
      · simp only [h1, Option.getD_some]
        omega
      · simp [List.getElem?_eq_getElem hp]
    · rintro ⟨p, T, dt, h1, h2, h3, rfl, h5⟩
      have := ha3 k p tr ⟨T, i, h1, h2, h3⟩
      unfold get2 at this
      rw [hr] at this
      refine ⟨(tr, p), by simpa [List.mem_zipIdx_iff_getElem?] using this, rfl, ?_, ?_⟩
      · simp only [h1, Option.getD_some]
        omega
      · simp only [h5, Option.getD_some]
  have hp2 : ∀ (k : Nat) (row : List Nat), a[k]? = some row → p2tr 0 (frames.map List.length) trajs (0 + k) = .ok row := by
    intro k row hr
    unfold p2tr
    rw [ha1, ok_bind, if_neg (by omega), Nat.zero_add, Nat.sub_zero, hr]
    rfl
  have hfold : loadAll 0 (frames.map List.length) trajs frames
      = putAll (trajs.map fun T => List.replicate T.2.length 0) (frames.zipIdx.flatMap ws) := by
    unfold loadAll putAll
    rw [foldlM_flatMap]
    have gen : ∀ (l : List (List V × Nat)), (∀ f ∈ l, f ∈ frames.zipIdx) → ∀ m : List (List V), m.map List.length = trajs.map (fun T => T.2.length) →
        l.foldlM (fun m f => do
          let p2 ← p2tr 0 (frames.map List.length) trajs (0 + f.2)
          p2.zipIdx.foldlM (loadStep (trajs.map Prod.fst) (0 + f.2) f.1) m) m
        = l.foldlM (fun m f => (ws f).foldlM (fun m x => put m x.1 x.2.1 x.2.2) m) m := by
      intro l
      induction l with
      | nil => intro _ m _; rfl
      | cons f l ih =>
        intro hl m hm
        obtain ⟨f, k⟩ := f
        have hfm := hl (f, k) (by simp)
        have hf' : frames[k]? = some f := by simpa [List.mem_zipIdx_iff_getElem?] using hfm
        obtain ⟨row, hr, hlr⟩ := hrow k f hf'
        have hstep : (do
            let p2 ← p2tr 0 (frames.map List.length) trajs (0 + k)
            p2.zipIdx.foldlM (loadStep (trajs.map Prod.fst) (0 + k) f) m) = (ws (f, k)).foldlM (fun m x => put m x.1 x.2.1 x.2.2) m := by
          rw [hp2 k row hr, ok_bind]
          simp only [ws, hr, Option.getD_some]
          apply fold_puts _ (trajs.map fun T => T.2.length) _ _ _ _ hm
          rintro ⟨u, p⟩ hx m' hm'
          have hw : (u, k - (trajs[u]?.getD (0, [])).1, f[p]?.getD 0) ∈ ws (f, k) := by
            simp only [ws, hr, Option.getD_some]
            exact List.mem_map.2 ⟨(u, p), hx, rfl⟩
          obtain ⟨q, T, dt, h1, h2, h3, h4, h5⟩ := (hws _ hfm _).1 hw
          simp only at h1 h2 h3 h4 h5
          have hx : row[p]? = some u := by simpa [List.mem_zipIdx_iff_getElem?] using hx
          have hp : p < f.length := by
            have := (List.getElem?_eq_some_iff.1 hx).1
            omega
          unfold loadStep
          have e1 : idx f p = .ok (f[p]?.getD 0) := by
            unfold idx; simp [List.getElem?_eq_getElem hp]
          have e2 : ∃ r, m'[u]? = some r ∧ r.length = T.2.length := by
            have : (m'.map List.length)[u]? = some T.2.length := by rw [hm', List.getElem?_map, h1]; rfl
            rw [List.getElem?_map, Option.map_eq_some_iff] at this
            exact this
          obtain ⟨r, e2, e2'⟩ := e2
          have e3 : idx (trajs.map Prod.fst) u = .ok T.1 := by
            apply Average.idx_some; rw [List.getElem?_map, h1]; rfl
          rw [e1, ok_bind, Average.idx_some e2, ok_bind, e3, ok_bind]
          have hdt : dt < T.2.length := (List.getElem?_eq_some_iff.1 h2).1
          have e4 : pyIndex r.length (((0 + k : Nat) : Int) - (T.1 : Int)) = .ok dt := by
            unfold pyIndex
            rw [if_pos (by omega), if_pos (by omega)]
            congr 1
            omega
          rw [e4, ok_bind]
          simp only [h4]
        rw [List.foldlM_cons, List.foldlM_cons, hstep]
        cases hs : (ws (f, k)).foldlM (fun m x => put m x.1 x.2.1 x.2.2) m with
        | error e => rfl
        | ok m' =>
          rw [ok_bind, ok_bind]
          refine ih (fun g hg => hl g (by simp [hg])) m' ?_
          exact fold_keeps (I := fun m => m.map List.length = trajs.map fun T => T.2.length)
            (fun s x s' hs h => by rw [put_lengths h, hs]) _ hm hs
    exact gen _ (fun f hf => hf) _ (by rw [List.map_map]; simp [Function.comp_def])
  have hlen0 : ((trajs.map fun T => List.replicate T.2.length (0 : V)).map List.length) = trajs.map fun T => T.2.length := by
    rw [List.map_map]; simp [Function.comp_def]
  have hmem : ∀ y, y ∈ frames.zipIdx.flatMap ws → ∃ p T k f, trajs[y.1]? = some T ∧ T.2[y.2.1]? = some p ∧ k = T.1 + y.2.1
      ∧ frames[k]? = some f ∧ f[p]? = some y.2.2 := by
    intro y hy
    obtain ⟨⟨f, k⟩, hf, hy⟩ := List.mem_flatMap.1 hy
    obtain ⟨p, T, dt, h1, h2, h3, h4, h5⟩ := (hws _ hf y).1 hy
    subst h4
    exact ⟨p, T, k, f, h1, h2, h3, by simpa [List.mem_zipIdx_iff_getElem?] using hf, h5⟩
  obtain ⟨m, q1, q2, q3, -⟩ := putAll_ok (frames.zipIdx.flatMap ws) (trajs.map fun T => List.replicate T.2.length 0) (by
      intro x hx
      obtain ⟨p, T, k, f, h1, h2, -⟩ := hmem x hx
      rw [hlen0]
      exact ⟨T.2.length, by rw [List.getElem?_map, h1]; rfl, (List.getElem?_eq_some_iff.1 h2).1⟩) (by
      intro x hx y hy e1 e2
      obtain ⟨p, T, k, f, h1, h2, h3, h4, h5⟩ := hmem x hx
      obtain ⟨p', T', k', f', h1', h2', h3', h4', h5'⟩ := hmem y hy
      rw [← e1, h1] at h1'
      cases h1'
      rw [← e2, h2] at h2'
      cases h2'
      rw [← e2, ← h3] at h3'
      subst h3'
      rw [h4] at h4'
      cases h4'
      rw [h5] at h5'
      exact Option.some.inj h5')
  refine ⟨m, by rw [hfold, q1], by rw [q2, hlen0], ?_⟩
  intro tr T dt p hT hp
  obtain ⟨n, hn, hlt⟩ := hc.exists_ (T.1 + dt) p tr ⟨T, dt, hT, hp, rfl⟩
  rw [List.getElem?_map, Option.map_eq_some_iff] at hn
  obtain ⟨f, hf, rfl⟩ := hn
  have hv : f[p]? = some f[p] := List.getElem?_eq_getElem hlt
  have hmemw : (tr, dt, f[p]) ∈ frames.zipIdx.flatMap ws := by
    refine List.mem_flatMap.2 ⟨(f, T.1 + dt), by simpa [List.mem_zipIdx_iff_getElem?] using hf, ?_⟩
    refine (hws _ (by simpa [List.mem_zipIdx_iff_getElem?] using hf) _).2 ⟨p, T, dt, hT, hp, rfl, rfl, hv⟩
  rw [q3 _ hmemw]
  unfold get2
  rw [hf]
  exact hv.symm

/-- C165 fails when the first time is not 0: the time of the file is compared to the starting time of the trajectory, that is counted from the
first file. As soon as there is a trajectory, `load_all` raises `IndexError`. -/
theorem C165_offset_counterexample (offset : Nat) (ho : 0 < offset) {frames : List (List V)} {trajs : List (Nat × List Nat)}
    (hc : Consistent (frames.map List.length) trajs) (tr : Nat) (T : Nat × List Nat) (hT : trajs[tr]? = some T) (h0 : T.2 ≠ []) :
    loadAll offset (frames.map List.length) trajs frames = .error .outOfRange := by
  obtain ⟨a, ha1, ha2, ha3, -⟩ := pos2tr_ok hc
  have hpos : 0 < T.2.length := List.length_pos_of_ne_nil h0
  obtain ⟨p, hp⟩ : ∃ p, T.2[T.2.length - 1]? = some p := ⟨_, List.getElem?_eq_getElem (by omega)⟩
  have hat : At trajs (T.1 + (T.2.length - 1)) p tr := ⟨T, _, hT, hp, rfl⟩
  obtain ⟨n, hn, hlt⟩ := hc.exists_ _ _ _ hat
  rw [List.getElem?_map, Option.map_eq_some_iff] at hn
  obtain ⟨f, hf, rfl⟩ := hn
  have hp2 : ∀ (k : Nat) (row : List Nat), a[k]? = some row → p2tr offset (frames.map List.length) trajs (offset + k) = .ok row := by
    intro k row hr
    unfold p2tr
    rw [ha1, ok_bind, if_neg (by omega), Nat.add_sub_cancel_left, hr]
    rfl
  have hget := ha3 _ _ _ hat
  have hrow : ∃ row, a[T.1 + (T.2.length - 1)]? = some row ∧ row[p]? = some tr := by
    unfold get2 at hget
    cases hr : a[T.1 + (T.2.length - 1)]? with
    | none => rw [hr] at hget; cases hget
    | some row => rw [hr] at hget; exact ⟨row, rfl, hget⟩
  obtain ⟨row, hr, hrp⟩ := hrow
  have hlen0 : ((trajs.map fun T => List.replicate T.2.length (0 : V)).map List.length) = trajs.map fun T => T.2.length := by
    rw [List.map_map]; simp [Function.comp_def]
  unfold loadAll
  have hmemf : (f, T.1 + (T.2.length - 1)) ∈ frames.zipIdx := by simpa [List.mem_zipIdx_iff_getElem?] using hf
  -- the errors of all the steps are the same
  have herr : ∀ m : List (List V), ∀ x ∈ frames.zipIdx, ∀ e', (do
      let p2 ← p2tr offset (frames.map List.length) trajs (offset + x.2)
      p2.zipIdx.foldlM (loadStep (trajs.map Prod.fst) (offset + x.2) x.1) m) = .error e' → e' = .outOfRange := by
    rintro m ⟨g, k⟩ hx e' h
    have hg : frames[k]? = some g := by simpa [List.mem_zipIdx_iff_getElem?] using hx
    have : (a.map List.length)[k]? = some g.length := by rw [ha2, List.getElem?_map, hg]; rfl
    rw [List.getElem?_map, Option.map_eq_some_iff] at this
    obtain ⟨row', hr', -⟩ := this
    rw [hp2 k row' hr', ok_bind] at h
    exact fold_error (fun s x e' h => loadStep_error h) _ h
  have gen : ∀ l : List (List V × Nat), (∀ x ∈ l, x ∈ frames.zipIdx) → (f, T.1 + (T.2.length - 1)) ∈ l → ∀ m : List (List V),
      m.map List.length = trajs.map (fun T => T.2.length) → l.foldlM (fun m f => do
        let p2 ← p2tr offset (frames.map List.length) trajs (offset + f.2)
        p2.zipIdx.foldlM (loadStep (trajs.map Prod.fst) (offset + f.2) f.1) m) m = .error .outOfRange := by
    intro l
    induction l with
    | nil => intro _ h; cases h
    | cons y l ih =>
      intro hl hx m hm
      rw [List.foldlM_cons]
      cases hy : (do
        let p2 ← p2tr offset (frames.map List.length) trajs (offset + y.2)
        p2.zipIdx.foldlM (loadStep (trajs.map Prod.fst) (offset + y.2) y.1) m) with
      | error e' =>
        rw [herr m y (hl y (by simp)) e' hy]
        rfl
      | ok m' =>
        rw [ok_bind]
        have hm' : m'.map List.length = trajs.map fun T => T.2.length := by
          obtain ⟨p2, -, h2⟩ := bind_ok.1 hy
          exact fold_keeps (I := fun m => m.map List.length = trajs.map fun T => T.2.length)
            (fun s x s' hs h => by rw [loadStep_lengths h, hs]) _ hm h2
        rcases List.mem_cons.1 hx with hxy | hx
        · exfalso
          subst hxy
          rw [hp2 _ row hr, ok_bind] at hy
          have : row.zipIdx.foldlM (loadStep (trajs.map Prod.fst) (offset + (T.1 + (T.2.length - 1))) f) m = .error .outOfRange := by
            refine fold_fails _ (fun m => m.map List.length = trajs.map fun T => T.2.length) _ (fun s x s' hs h => by rw [loadStep_lengths h, hs])
              (fun s x e' _ h => loadStep_error h) _ (tr, p) (by simpa [List.mem_zipIdx_iff_getElem?] using hrp) ?_ _ hm
            intro s hs
            have e2 : ∃ r, s[tr]? = some r ∧ r.length = T.2.length := by
              have : (s.map List.length)[tr]? = some T.2.length := by rw [hs, List.getElem?_map, hT]; rfl
              rw [List.getElem?_map, Option.map_eq_some_iff] at this
              exact this
            obtain ⟨r, e2, e2'⟩ := e2
            have e3 : idx (trajs.map Prod.fst) tr = .ok T.1 := by
              apply Average.idx_some; rw [List.getElem?_map, hT]; rfl
            unfold loadStep
            rw [Average.idx_some (List.getElem?_eq_getElem hlt), ok_bind, Average.idx_some e2, ok_bind, e3, ok_bind]
            have e4 : pyIndex r.length (((offset + (T.1 + (T.2.length - 1)) : Nat) : Int) - (T.1 : Int)) = .error .outOfRange := by
              unfold pyIndex
              rw [if_pos (by omega), if_neg (by omega)]
            rw [e4]
            rfl
          simp only [this] at hy
          cases hy
        · exact ih (fun g hg => hl g (by simp [hg])) hx m' hm'
  exact gen _ (fun x hx => hx) hmemf _ hlen0

/-- A trajectory of two steps, alone in its experiment. -/
example : Consistent [1, 1] [(0, [0, 0])] ∧ Complete [1, 1] [(0, [0, 0])] := by
  have key : ∀ t p tr, At [(0, [0, 0])] t p tr → t < 2 ∧ p = 0 ∧ tr = 0 := by
    rintro t p tr ⟨T, dt, h1, h2, rfl⟩
    obtain ⟨h, rfl⟩ := List.getElem?_eq_some_iff.1 h1
    obtain rfl : tr = 0 := by simpa using h
    obtain ⟨h', h2⟩ := List.getElem?_eq_some_iff.1 h2
    have h' : dt < 2 := by simpa using h'
    refine ⟨by simpa using h', ?_, rfl⟩
    rcases (by omega : dt = 0 ∨ dt = 1) with rfl | rfl <;> exact h2.symm
  refine ⟨⟨?_, ?_⟩, ?_⟩
  · intro t p tr h
    obtain ⟨ht, rfl, rfl⟩ := key t p tr h
    rcases (by omega : t = 0 ∨ t = 1) with rfl | rfl <;> exact ⟨1, rfl, by decide⟩
  · intro t p tr tr' h h'
    rw [(key t p tr h).2.2, (key t p tr' h').2.2]
  · intro t n p hn hp
    obtain ⟨ht, rfl⟩ := List.getElem?_eq_some_iff.1 hn
    have ht : t < 2 := by simpa using ht
    rcases (by omega : t = 0 ∨ t = 1) with rfl | rfl
    · obtain rfl : p = 0 := by simpa using hp
      exact ⟨0, (0, [0, 0]), 0, rfl, rfl, rfl⟩
    · obtain rfl : p = 0 := by simpa using hp
      exact ⟨0, (0, [0, 0]), 1, rfl, rfl, rfl⟩

end Exp
end Py
end Colloids
