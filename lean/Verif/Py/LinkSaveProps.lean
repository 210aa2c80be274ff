import Verif.Py.LinkSaveModel
import Verif.Py.PairProps
import Verif.Py.LinkerProps
import Verif.CommonLemmas

/-! # Linking of a film in python: C232 -/

namespace Colloids
namespace Py
namespace LinkSave

open Linker

/-- The distance of two points. -/
noncomputable def gap (x y : Fin 3 → ℝ) : ℝ := Real.sqrt (∑ a, (y a - x a) ^ 2)

/-- What holds after a number of frames. -/
structure Inv (argsort : List ℝ → List Nat) (done : List (List (Fin 3 → ℝ))) (cur : List (Fin 3 → ℝ)) (s : State) : Prop where
  reached : Reached argsort s.linker
  pos1 : s.pos1 = .rows cur
  files : s.files = s.linker.pos2tr
  len : s.files.map List.length = (done ++ [cur]).map List.length
  near : ∀ (t p q tr : Nat) (f g : List Nat) (F G : List (Fin 3 → ℝ)) (x y : Fin 3 → ℝ), s.files[t]? = some f → s.files[t + 1]? = some g →
    (done ++ [cur])[t]? = some F → (done ++ [cur])[t + 1]? = some G → f[p]? = some tr → g[q]? = some tr → F[p]? = some x → G[q]? = some y → gap x y < 10

theorem load_rows {frame : List (Fin 3 → ℝ)} (h : 2 ≤ frame.length) : load frame = .rows frame := by
  match frame, h with
  | _ :: _ :: _, _ => rfl

theorem step_inv {argsort : List ℝ → List Nat} (hs : Sorts argsort) {P : RParams ℝ} {H : Heur 3 ℝ} (hP : P.Valid) (hH : H.Valid P)
    {done : List (List (Fin 3 → ℝ))} {cur frame : List (Fin 3 → ℝ)} {s : State} (h : Inv argsort done cur s) (hf : 2 ≤ frame.length) :
    ∃ s', step true argsort P H s frame = .ok s' ∧ Inv argsort (done ++ [cur]) frame s' := by
  obtain ⟨pairs, ds, hl, hlen, hnd, hpd⟩ := Pairs.C218_links (P := P) (H := H) hP hH (pos0 := cur) (pos1 := frame) (radii0 := List.replicate cur.length 1)
    (radii1 := List.replicate frame.length 1) (maxdist := 5) (by simp) (by simp) (by norm_num) (by simp) (by simp)
  have hfl : s.files.length = done.length + 1 := by
    have := congrArg List.length h.len
    simpa using this
  obtain ⟨prev, hprev⟩ : ∃ prev, s.linker.pos2tr.getLast? = some prev := by
    rw [← h.files]
    cases hg : s.files.getLast? with
    | none => rw [List.getLast?_eq_none_iff] at hg; rw [hg] at hfl; simp at hfl
    | some x => exact ⟨x, rfl⟩
  have hprevlen : prev.length = cur.length := by
    have h1 : (s.files.map List.length).getLast? = some cur.length := by rw [h.len]; simp
    rw [List.getLast?_map, h.files, hprev] at h1
    simpa using h1
  have hval : ∀ x ∈ pairs, x.1 < prev.length ∧ x.2 < frame.length := by
    intro x hx
    obtain ⟨k, hk⟩ := List.mem_iff_getElem?.1 hx
    have hkl : k < ds.length := by rw [← hlen]; exact (List.getElem?_eq_some_iff.1 hk).1
    obtain ⟨x0, r0, x1, r1, e1, _, e3, _⟩ := (hpd x.1 x.2 ds[k]).1 ⟨k, hk, List.getElem?_eq_getElem hkl⟩
    rw [hprevlen]
    exact ⟨(List.getElem?_eq_some_iff.1 e1).1, (List.getElem?_eq_some_iff.1 e3).1⟩
  obtain ⟨l', f, M, ha, hp2, hfs, _, _, _, _, hlink, hnew⟩ := C148_link_partial hs h.reached hprev frame.length pairs ds hlen hval
  have hr' : Reached argsort l' := .add h.reached hprev (fun x hx => (hval x hx).1) ha
  have hlast : last l'.pos2tr = .ok f := by rw [last, hp2]; simp
  refine ⟨⟨.rows frame, l', s.files ++ [f]⟩, ?_, ?_⟩
  · simp only [step, h.pos1, load_rows hf, hl, ha, hlast, ok_bind, pure_eq_ok]
  refine ⟨hr', rfl, by rw [hp2, h.files], ?_, ?_⟩
  · rw [List.map_append, h.len, List.map_append (l₁ := done ++ [cur])]
    simp [hfs]
  · intro t p q tr f0 g0 F G x y e1 e2 e3 e4 e5 e6 e7 e8
    simp only at e1 e2
    have htl : t + 1 < s.files.length + 1 := by
      have := (List.getElem?_eq_some_iff.1 e2).1
      simpa using this
    have hdl : (done ++ [cur]).length = s.files.length := by rw [hfl]; simp
    by_cases ht : t + 1 < s.files.length
    · rw [List.getElem?_append_left (by omega)] at e1 e2
      rw [List.getElem?_append_left (by omega)] at e3 e4
      exact h.near t p q tr f0 g0 F G x y e1 e2 e3 e4 e5 e6 e7 e8
    · have ht' : t + 1 = s.files.length := by omega
      have htd : t = done.length := by omega
      rw [List.getElem?_append_left (by omega)] at e1
      rw [ht', List.getElem?_append_right le_rfl, Nat.sub_self] at e2
      rw [ht', ← hdl, List.getElem?_append_right le_rfl, Nat.sub_self] at e4
      rw [List.getElem?_append_left (by omega), List.getElem?_append_right (by omega), htd, Nat.sub_self] at e3
      simp only [List.getElem?_cons_zero, Option.some.injEq] at e2 e3 e4
      subst e2 e3 e4
      have hf0 : f0 = prev := by
        rw [List.getLast?_eq_getElem?, ← h.files, show s.files.length - 1 = t by omega, e1] at hprev
        exact Option.some.inj hprev
      subst hf0
      have htab := C148_tables_partial hs h.reached
      have hold : tr < s.linker.trajstart.length := by
        obtain ⟨s0, st, g1, _⟩ := (htab.1 t p tr).1 ⟨f0, by rw [← h.files]; exact e1, e5⟩
        exact (List.getElem?_eq_some_iff.1 g1).1
      have hq : q < frame.length := (List.getElem?_eq_some_iff.1 e8).1
      by_cases hm : ∀ (i : Nat) (z : Nat × Nat), i ∈ M → pairs[i]? = some z → z.2 ≠ q
      · obtain ⟨tr', g1, g2⟩ := hnew q hq hm
        rw [e6] at g1
        have := Option.some.inj g1
        omega
      · push Not at hm
        obtain ⟨i, z, hi, hz, rfl⟩ := hm
        have hf' := hlink i z hi hz
        rw [e6] at hf'
        have hsame : z.1 = p := by
          obtain ⟨s0, st, g1, g2, g3, g4⟩ := (htab.1 t p tr).1 ⟨f0, by rw [← h.files]; exact e1, e5⟩
          obtain ⟨s1, st1, k1, k2, k3, k4⟩ := (htab.1 t z.1 tr).1 ⟨f0, by rw [← h.files]; exact e1, hf'.symm⟩
          rw [g1] at k1; rw [g2] at k2
          cases k1; cases k2
          rw [g4] at k4
          exact (Option.some.inj k4).symm
        subst hsame
        have hil : i < ds.length := by rw [← hlen]; exact (List.getElem?_eq_some_iff.1 hz).1
        obtain ⟨x0, r0, x1, r1, k1, k2, k3, k4, k5, k6⟩ := (hpd z.1 z.2 ds[i]).1 ⟨i, hz, List.getElem?_eq_getElem hil⟩
        rw [e7] at k1; rw [e8] at k3
        cases k1; cases k3
        have hr0 : r0 = 1 := by have := List.mem_of_getElem? k2; simpa using (List.mem_replicate.1 this).2
        have hr1 : r1 = 1 := by have := List.mem_of_getElem? k4; simpa using (List.mem_replicate.1 this).2
        rw [hr0, hr1, k5] at k6
        unfold gap
        linarith

theorem fold_inv {argsort : List ℝ → List Nat} (hs : Sorts argsort) {P : RParams ℝ} {H : Heur 3 ℝ} (hP : P.Valid) (hH : H.Valid P)
    (frames : List (List (Fin 3 → ℝ))) (hf : ∀ f ∈ frames, 2 ≤ f.length) {done : List (List (Fin 3 → ℝ))} {cur : List (Fin 3 → ℝ)} {s : State}
    (h : Inv argsort done cur s) :
    ∃ s' done' cur', frames.foldlM (step true argsort P H) s = .ok s' ∧ done' ++ [cur'] = done ++ [cur] ++ frames ∧ Inv argsort done' cur' s' := by
  induction frames generalizing done cur s with
  | nil => exact ⟨s, done, cur, rfl, by simp, h⟩
  | cons f l ih =>
    obtain ⟨s1, e1, h1⟩ := step_inv hs hP hH h (hf f List.mem_cons_self)
    obtain ⟨s2, d2, c2, e2, h2, h3⟩ := ih (fun x hx => hf x (List.mem_cons_of_mem _ hx)) h1
    exact ⟨s2, d2, c2, by rw [List.foldlM_cons, e1, ok_bind, e2], by rw [h2]; simp, h3⟩

theorem new_inv {argsort : List ℝ → List Nat} (first : List (Fin 3 → ℝ)) :
    Inv argsort [] first ⟨.rows first, Linker.new first.length, [List.range first.length]⟩ := by
  refine ⟨.new _, rfl, rfl, by simp, ?_⟩
  intro t p q tr f g F G x y e1 e2
  simp at e2

theorem used_eq {frames : List (List (Fin 3 → ℝ))} (hf : ∀ f ∈ frames, 2 ≤ f.length) : used frames = frames := by
  unfold used
  split
  · rename_i h
    have := hf [] (List.mem_of_getLast? h)
    simp at this
  · rfl

/-- C232. With frames of two particles or more `link_save` writes a file `p2tr` for each frame, that has a trajectory for each particle, and a file `.traj`
that the C++ library reads: there a trajectory visits a position at a time if and only if the file `p2tr` of the time gives this trajectory for this position.
Consecutive positions of a trajectory are closer than twice 5. -/
theorem C232_film_partial {argsort : List ℝ → List Nat} (hs : Sorts argsort) {P : RParams ℝ} {H : Heur 3 ℝ} (hP : P.Valid) (hH : H.Valid P)
    (frames : List (List (Fin 3 → ℝ))) (hne : frames ≠ []) (hf : ∀ f ∈ frames, 2 ≤ f.length) (hT : frames.length ≤ 2 ^ 64) (hN : ∀ f ∈ frames, f.length ≤ 2 ^ 64) :
    ∃ (files : List (List Nat)) (text : List Char) (trs : List Traj), linkSave true argsort P H frames = .ok (files, frames.length, text) ∧
      files.map List.length = frames.map List.length ∧ TrajIndex.read text = .ok trs ∧
      (∀ t p tr : Nat, (∃ f : List Nat, files[t]? = some f ∧ f[p]? = some tr) ↔ ∃ T : Traj, trs[tr]? = some T ∧ T.start ≤ t ∧ T.steps[t - T.start]? = some p) ∧
      ∀ (T : Traj) (t p q : Nat) (F G : List (Fin 3 → ℝ)) (x y : Fin 3 → ℝ), T ∈ trs → T.start ≤ t → T.steps[t - T.start]? = some p →
        T.steps[t + 1 - T.start]? = some q → frames[t]? = some F → frames[t + 1]? = some G → F[p]? = some x → G[q]? = some y → gap x y < 10 := by
  cases frames with
  | nil => exact absurd rfl hne
  | cons first rest =>
    have h1 : load first = .rows first := load_rows (hf first List.mem_cons_self)
    obtain ⟨s, done, cur, hfold, hall, hinv⟩ := fold_inv hs hP hH rest (fun f h => hf f (List.mem_cons_of_mem _ h)) (new_inv (argsort := argsort) first)
    have hall' : done ++ [cur] = first :: rest := by rw [hall]; simp
    obtain ⟨tab, tl, _, tends, _⟩ := C148_tables_partial hs hinv.reached
    have hlen : s.files.map List.length = (first :: rest).map List.length := by rw [hinv.len, hall']
    have hlen' : s.files.length = (first :: rest).length := by simpa using congrArg List.length hlen
    have hzip : ∀ (tr : Nat) (T : Traj), ((s.linker.trajstart.zip s.linker.tr2pos).map fun x => (⟨x.1, x.2⟩ : Traj))[tr]? = some T ↔
        s.linker.trajstart[tr]? = some T.start ∧ s.linker.tr2pos[tr]? = some T.steps := by
      intro tr T
      rw [List.getElem?_map, Option.map_eq_some_iff]
      constructor
      · rintro ⟨⟨a, b⟩, h, rfl⟩
        exact List.getElem?_zip_eq_some.1 h
      · intro h
        exact ⟨(T.start, T.steps), List.getElem?_zip_eq_some.2 h, rfl⟩
    have hread := (C148_save hs hinv.reached (by
      intro st hst
      obtain ⟨tr, htr⟩ := List.mem_iff_getElem?.1 hst
      have htl : tr < s.linker.tr2pos.length := by rw [tl]; exact (List.getElem?_eq_some_iff.1 htr).1
      obtain ⟨g1, g2⟩ := tends tr st _ htr (List.getElem?_eq_getElem htl)
      have := List.length_pos_of_ne_nil g1
      rw [← hinv.files, hlen'] at g2
      omega) (by
      intro st hst p hp
      obtain ⟨tr, htr⟩ := List.mem_iff_getElem?.1 hst
      obtain ⟨k, hk⟩ := List.mem_iff_getElem?.1 hp
      have htl : tr < s.linker.trajstart.length := by rw [← tl]; exact (List.getElem?_eq_some_iff.1 htr).1
      obtain ⟨f, g1, g2⟩ := (tab (s.linker.trajstart[tr] + k) p tr).2 ⟨_, st, List.getElem?_eq_getElem htl, htr, Nat.le_add_right _ _, by rw [Nat.add_sub_cancel_left]; exact hk⟩
      have hpf : p < f.length := (List.getElem?_eq_some_iff.1 g2).1
      have hfm : f.length ∈ (first :: rest).map List.length := by
        rw [← hlen, hinv.files]
        exact List.mem_map.2 ⟨f, List.mem_of_getElem? g1, rfl⟩
      obtain ⟨F, hF, hFl⟩ := List.mem_map.1 hfm
      have := hN F hF
      omega)).2
    refine ⟨s.files, s.linker.save, (s.linker.trajstart.zip s.linker.tr2pos).map fun x => ⟨x.1, x.2⟩, ?_, hlen, hread, ?_, ?_⟩
    · have hidx : idx (first :: rest) 0 = .ok first := rfl
      have hl : last (Linker.new (Loaded.rows first).len).pos2tr = .ok (List.range first.length) := rfl
      rw [linkSave]
      simp only [used_eq hf, hidx, ok_bind, h1, hl, List.drop_succ_cons, List.drop_zero]
      have : (Loaded.rows first).len = first.length := rfl
      rw [this, hfold, ok_bind, pure_eq_ok]
    · intro t p tr
      rw [hinv.files, tab]
      constructor
      · rintro ⟨s0, st, g1, g2, g3, g4⟩
        exact ⟨⟨s0, st⟩, (hzip _ _).2 ⟨g1, g2⟩, g3, g4⟩
      · rintro ⟨T, g1, g2, g3⟩
        exact ⟨T.start, T.steps, ((hzip _ _).1 g1).1, ((hzip _ _).1 g1).2, g2, g3⟩
    · intro T t p q F G x y hT' hst hp hq hF hG hx hy
      obtain ⟨tr, htr⟩ := List.mem_iff_getElem?.1 hT'
      obtain ⟨z1, z2⟩ := (hzip _ _).1 htr
      obtain ⟨f, g1, g2⟩ := (tab t p tr).2 ⟨_, _, z1, z2, hst, hp⟩
      obtain ⟨g, k1, k2⟩ := (tab (t + 1) q tr).2 ⟨_, _, z1, z2, by omega, hq⟩
      rw [← hinv.files] at g1 k1
      exact hinv.near t p q tr f g F G x y g1 k1 (by rw [hall']; exact hF) (by rw [hall']; exact hG) g2 k2 hx hy

/-- C232. An empty last frame is not used. -/
theorem C232_empty_partial (weave : Bool) (argsort : List ℝ → List Nat) (P : RParams ℝ) (H : Heur 3 ℝ) (frames : List (List (Fin 3 → ℝ))) (hne : frames ≠ [])
    (hf : frames.getLast? ≠ some []) : linkSave weave argsort P H (frames ++ [[]]) = linkSave weave argsort P H frames := by
  have h1 : used (frames ++ [[]]) = frames := by simp [used]
  have h2 : used frames = frames := by
    unfold used
    split
    · rename_i h; exact absurd h hf
    · rfl
  cases frames with
  | nil => exact absurd rfl hne
  | cons a l =>
    unfold linkSave
    rw [h1, h2]
    rfl

/-- C232, the part that is false. The three coordinates of a single particle are taken for three particles: a film of one frame has three trajectories. -/
theorem C232_single_counterexample (weave : Bool) (argsort : List ℝ → List Nat) (P : RParams ℝ) (H : Heur 3 ℝ) (x : Fin 3 → ℝ) :
    ∃ text, linkSave weave argsort P H [[x]] = .ok ([[0, 1, 2]], 1, text) ∧
      TrajIndex.read text = .ok [⟨0, [0]⟩, ⟨0, [1]⟩, ⟨0, [2]⟩] := by
  refine ⟨(Linker.new 3).save, rfl, ?_⟩
  exact (C148_save exSort_sorts (Reached.new 3) (by decide) (by decide)).2

/-- C232, the part that is false. A frame of one particle or none before another frame, or after it, stops `link_save`. -/
theorem C232_short_counterexample (weave : Bool) (argsort : List ℝ → List Nat) (P : RParams ℝ) (H : Heur 3 ℝ) (first second : List (Fin 3 → ℝ))
    (rest : List (List (Fin 3 → ℝ))) (hne : (second :: rest).getLast? ≠ some []) (h : first.length < 2 ∨ second.length < 2) :
    linkSave weave argsort P H (first :: second :: rest) = .error .outOfRange := by
  have hu : used (first :: second :: rest) = first :: second :: rest := by
    unfold used
    split
    · rename_i hh
      rw [List.getLast?_cons_cons] at hh
      exact absurd hh hne
    · rfl
  have hflat : ∀ l : List (Fin 3 → ℝ), l.length < 2 → ∃ n, load l = .flat n := by
    intro l hl
    match l, hl with
    | [], _ => exact ⟨0, rfl⟩
    | [_], _ => exact ⟨3, rfl⟩
  have hstep : ∀ (lk : Linker) fs, step weave argsort P H ⟨load first, lk, fs⟩ second = .error .outOfRange := by
    intro lk fs
    rcases h with h | h
    · obtain ⟨n, hn⟩ := hflat first h
      simp only [step, hn]
    · obtain ⟨n, hn⟩ := hflat second h
      cases hl : load first <;> simp only [step, hn, hl]
  have hidx : idx (first :: second :: rest) 0 = .ok first := rfl
  have hl : ∀ n, last (Linker.new n).pos2tr = .ok (List.range n) := fun _ => rfl
  rw [linkSave]
  simp only [hu, hidx, hl, ok_bind, List.drop_succ_cons, List.drop_zero, List.foldlM_cons, hstep, error_bind]

/-- C232, the part that is false. As the lines that import `weave` are comments, `link_save` stops at the first link. -/
theorem C232_weave_counterexample {argsort : List ℝ → List Nat} {P : RParams ℝ} {H : Heur 3 ℝ} (hP : P.Valid) (hH : H.Valid P)
    (first second : List (Fin 3 → ℝ)) (rest : List (List (Fin 3 → ℝ))) (hf : ∀ f ∈ first :: second :: rest, 2 ≤ f.length)
    (p q : Nat) (x y : Fin 3 → ℝ) (hx : first[p]? = some x) (hy : second[q]? = some y) (hxy : gap x y < 10) :
    ∃ e, linkSave false argsort P H (first :: second :: rest) = .error e := by
  obtain ⟨pairs, ds, hl, hlen, hnd, hpd⟩ := Pairs.C218_links (P := P) (H := H) hP hH (pos0 := first) (pos1 := second) (radii0 := List.replicate first.length 1)
    (radii1 := List.replicate second.length 1) (maxdist := 5) (by simp) (by simp) (by norm_num) (by simp) (by simp)
  have hne : pairs ≠ [] := by
    obtain ⟨k, hk, _⟩ := (hpd p q (gap x y)).2 ⟨x, 1, y, 1, hx, by simp [(List.getElem?_eq_some_iff.1 hx).1], hy, by simp [(List.getElem?_eq_some_iff.1 hy).1],
      rfl, by linarith⟩
    intro h0
    rw [h0] at hk
    simp at hk
  obtain ⟨e, he⟩ := C148_weave_counterexample argsort (Linker.new first.length) second.length pairs ds hne
  refine ⟨e, ?_⟩
  have h1 : load first = .rows first := load_rows (hf first (by simp))
  have h2 : load second = .rows second := load_rows (hf second (by simp))
  have hidx : idx (first :: second :: rest) 0 = .ok first := rfl
  have hl' : ∀ n, last (Linker.new n).pos2tr = .ok (List.range n) := fun _ => rfl
  have hlen' : (Loaded.rows first).len = first.length := rfl
  rw [linkSave]
  simp only [used_eq hf, hidx, hl', ok_bind, List.drop_succ_cons, List.drop_zero, List.foldlM_cons, step, h1, h2, hlen', hl, he, error_bind]

/-- Two particles in two frames. -/
example : ∀ f ∈ [[(fun _ => 0 : Fin 3 → ℝ), fun _ => 20], [fun _ => 1, fun _ => 21]], 2 ≤ f.length ∧ f.length ≤ 2 ^ 64 := by
  intro f hf
  simp only [List.mem_cons, List.not_mem_nil, or_false] at hf
  rcases hf with rfl | rfl <;> simp

end LinkSave
end Py
end Colloids
