import Verif.Py.TxpModel
import Verif.Py.ExperimentLoadProps
import Verif.Py.ExperimentStatProps

/-! # Trajectories that span a window of time in python -/

namespace Colloids
namespace Py
namespace Txp
open Exp (V cumsum Consistent At get2)

/-! ## Selection -/

/-- C168. The window of time is always inside the experiment, and a window asked inside the experiment is kept as it is. -/
theorem C168_window (offset xpsize : Nat) (start size : Option Int) :
    (offset : Int) ≤ (clip offset xpsize start size).1 ∧ (clip offset xpsize start size).1 + (clip offset xpsize start size).2 ≤ offset + xpsize
      ∧ (∀ s n, start = some s → size = some n → (offset : Int) ≤ s → s + n ≤ offset + xpsize → clip offset xpsize start size = (s, n))
      ∧ clip offset xpsize none none = ((offset : Int), (xpsize : Int)) := by
  refine ⟨?_, ?_, ?_, ?_⟩
  · unfold clip
    cases start with
    | none => simp
    | some s => dsimp only; split_ifs <;> omega
  · unfold clip
    cases start with
    | none =>
      cases size with
      | none => dsimp only; omega
      | some n => dsimp only; split_ifs <;> omega
    | some s =>
      cases size with
      | none => dsimp only; split_ifs <;> omega
      | some n => dsimp only; split_ifs <;> omega
  · rintro s n rfl rfl h1 h2
    unfold clip
    dsimp only
    rw [if_neg (by omega), if_neg (by omega)]
  · unfold clip
    dsimp only
    congr 1
    omega

/-- The trajectories whose numbers are in a list are those that exist during a window of time, in the order of the numbers. -/
structure Spanning (trajs : List (Nat × List Nat)) (start size : Nat) (sel : List Nat) : Prop where
  sorted : sel.Pairwise (· < ·)
  mem : ∀ i, i ∈ sel ↔ ∃ T, trajs[i]? = some T ∧ T.1 ≤ start ∧ start + size ≤ T.1 + T.2.length

theorem slice_nat {α : Type} (l : List α) (a n : Nat) : Stat.slice l a ((a : Int) + n) = (l.drop a).take n := by
  unfold Stat.slice
  rw [if_neg (by omega)]
  have : ((a : Int) + n).toNat = a + n := by omega
  simp only [this]
  rw [List.drop_take]
  congr 1
  omega

/-- The selected trajectories, with their numbers. -/
theorem readTrajs_eq (start size : Nat) (trajs : List (Nat × List Nat)) :
    ∃ sel, Spanning trajs start size sel ∧ (readTrajs start size trajs).length = sel.length
      ∧ ∀ (n i : Nat) (T : Nat × List Nat), sel[n]? = some i → trajs[i]? = some T → (readTrajs start size trajs)[n]? = some ((T.2.drop (start - T.1)).take size) := by
  induction trajs using List.reverseRecOn with
  | nil => exact ⟨[], ⟨by simp, by simp⟩, rfl, by simp⟩
  | append_singleton trajs T ih =>
    obtain ⟨sel, hs, hl, hr⟩ := ih
    have hbound : ∀ i ∈ sel, i < trajs.length := by
      intro i hi
      obtain ⟨T, h, -⟩ := (hs.mem i).1 hi
      exact (List.getElem?_eq_some_iff.1 h).1
    unfold readTrajs at hl hr ⊢
    rw [List.filterMap_append]
    by_cases hT : T.1 ≤ start ∧ start + size ≤ T.1 + T.2.length
    · have e : (List.filterMap (fun T : Nat × List Nat =>
          let b := (start : Int) - T.1
          let s := T.2.length - b
          if 0 ≤ b ∧ (size : Int) ≤ s then some (Stat.slice T.2 b.toNat (b + size)) else none) [T]) = [(T.2.drop (start - T.1)).take size] := by
        simp only [List.filterMap_cons, List.filterMap_nil]
        rw [if_pos (by constructor <;> omega)]
        simp only
        have e1 : ((start : Int) - T.1).toNat = start - T.1 := by omega
        have e2 : (start : Int) - T.1 + size = ((start - T.1 : Nat) : Int) + size := by omega
        rw [e1, e2, slice_nat]
      rw [e]
      refine ⟨sel ++ [trajs.length], ⟨?_, ?_⟩, by rw [List.length_append, hl, List.length_append]; rfl, ?_⟩
      · rw [List.pairwise_append]
        refine ⟨hs.sorted, by simp, ?_⟩
        intro a ha b hb
        rw [List.mem_singleton.1 hb]
        exact hbound a ha
      · intro i
        rw [List.mem_append, List.mem_singleton]
        by_cases hi : i < trajs.length
        · rw [List.getElem?_append_left hi, ← hs.mem i]
          constructor
          · rintro (h | h)
            · exact h
            · omega
          · exact .inl
        · constructor
          · rintro (h | rfl)
            · exact absurd (hbound i h) hi
            · exact ⟨T, by simp, hT⟩
          · rintro ⟨T', h, -⟩
            have := (List.getElem?_eq_some_iff.1 h).1
            simp at this
            right
            omega
      · intro n i T' hn hi
        by_cases h : n < sel.length
        · rw [List.getElem?_append_left h] at hn
          rw [List.getElem?_append_left (by rw [hl]; exact h)]
          have := hbound i (List.mem_of_getElem? hn)
          rw [List.getElem?_append_left this] at hi
          exact hr n i T' hn hi
        · have hlt := (List.getElem?_eq_some_iff.1 hn).1
          simp at hlt
          obtain rfl : n = sel.length := by omega
          simp at hn
          subst hn
          simp at hi
          subst hi
          rw [List.getElem?_append_right (by rw [hl]), hl]
          simp
    · have e : (List.filterMap (fun T : Nat × List Nat =>
          let b := (start : Int) - T.1
          let s := T.2.length - b
          if 0 ≤ b ∧ (size : Int) ≤ s then some (Stat.slice T.2 b.toNat (b + size)) else none) [T]) = [] := by
        simp only [List.filterMap_cons, List.filterMap_nil]
        rw [if_neg (by omega)]
      rw [e, List.append_nil]
      refine ⟨sel, ⟨hs.sorted, ?_⟩, hl, ?_⟩
      · intro i
        rw [hs.mem i]
        by_cases hi : i < trajs.length
        · rw [List.getElem?_append_left hi]
        · constructor
          · rintro ⟨T', h, -⟩
            exact absurd (List.getElem?_eq_some_iff.1 h).1 hi
          · rintro ⟨T', h, h'⟩
            have := (List.getElem?_eq_some_iff.1 h).1
            simp at this
            obtain rfl : i = trajs.length := by omega
            simp at h
            subst h
            exact absurd h' hT
      · intro n i T' hn hi
        have := hbound i (List.mem_of_getElem? hn)
        rw [List.getElem?_append_left this] at hi
        exact hr n i T' hn hi

/-- What the selection and the positions are, for any first time: the positions in the file of a time are those of the indices that the
trajectories have at the step of that number. -/
theorem read_ok {offset : Nat} {frames : List (List V)} {trajs : List (Nat × List Nat)} {start size : Nat}
    (hoff : offset ≤ start) (hp : ∀ k < size, ∀ (i p : Nat) (T : Nat × List Nat), trajs[i]? = some T → T.1 ≤ start → start + size ≤ T.1 + T.2.length →
      T.2[start + k - T.1]? = some p → ∃ f v, frames[start + k - offset]? = some f ∧ f[p]? = some v) (hw : start + size ≤ offset + frames.length) :
    ∃ sel pos, Spanning trajs start size sel ∧ (readTrajs start size trajs).length = sel.length
      ∧ readPos offset start size frames (readTrajs start size trajs) = .ok pos ∧ pos.length = size
      ∧ ∀ k < size, ∃ row, pos[k]? = some row ∧ row.length = sel.length ∧ ∀ (n i p : Nat) (T : Nat × List Nat), sel[n]? = some i → trajs[i]? = some T →
        T.2[start + k - T.1]? = some p → get2 (readTrajs start size trajs) n k = some p ∧ row[n]? = get2 frames (start + k - offset) p := by
  classical
  obtain ⟨sel, hs, hl, hr⟩ := readTrajs_eq start size trajs
  -- each row
  have hrow : ∀ k ∈ List.range size, ∃ row, (do
      let raw ← idx frames (start + k - offset)
      (readTrajs start size trajs).mapM fun tr => do
        let p ← idx tr k
        idx raw p) = .ok row ∧ row.length = sel.length ∧ ∀ (n i p : Nat) (T : Nat × List Nat), sel[n]? = some i → trajs[i]? = some T →
        T.2[start + k - T.1]? = some p → get2 (readTrajs start size trajs) n k = some p ∧ row[n]? = get2 frames (start + k - offset) p := by
    intro k hk
    rw [List.mem_range] at hk
    have hf : start + k - offset < frames.length := by omega
    rw [Average.idx_some (List.getElem?_eq_getElem hf), ok_bind]
    -- the element of each trajectory
    have hone : ∀ tr ∈ readTrajs start size trajs, ∃ p v, tr[k]? = some p ∧ frames[start + k - offset][p]? = some v ∧ (do
        let p ← idx tr k
        idx frames[start + k - offset] p) = .ok v := by
      intro tr htr
      obtain ⟨n, hn⟩ := List.mem_iff_getElem?.1 htr
      have hlt : n < sel.length := by rw [← hl]; exact (List.getElem?_eq_some_iff.1 hn).1
      obtain ⟨T, h1, h2, h3⟩ := (hs.mem sel[n]).1 (List.getElem_mem hlt)
      have := hr n _ T (List.getElem?_eq_getElem hlt) h1
      rw [hn] at this
      obtain rfl := Option.some.inj this
      have hidx : T.2[start + k - T.1]? = some T.2[start + k - T.1] := List.getElem?_eq_getElem (by omega)
      obtain ⟨f, v, hf', hv⟩ := hp k hk _ _ T h1 h2 h3 hidx
      rw [List.getElem?_eq_getElem hf] at hf'
      obtain rfl := Option.some.inj hf'
      have hk' : ((T.2.drop (start - T.1)).take size)[k]? = some T.2[start + k - T.1] := by
        rw [List.getElem?_take_of_lt hk, List.getElem?_drop, ← hidx]
        congr 1
        omega
      refine ⟨_, v, hk', hv, ?_⟩
      rw [Average.idx_some hk', ok_bind, Average.idx_some hv]
    let g : List Nat → V := fun tr => if h : tr ∈ readTrajs start size trajs then (hone tr h).choose_spec.choose else 0
    have hg : ∀ tr ∈ readTrajs start size trajs, ∀ p, tr[k]? = some p → frames[start + k - offset][p]? = some (g tr) := by
      intro tr htr p hp'
      simp only [g, dif_pos htr]
      have := (hone tr htr).choose_spec.choose_spec
      rw [← Option.some.inj (this.1.symm.trans hp')]
      exact this.2.1
    refine ⟨(readTrajs start size trajs).map g, ?_, by rw [List.length_map, hl], ?_⟩
    · apply TreeIndex.mapM_ok_of
      intro tr htr
      simp only [g, dif_pos htr]
      exact (hone tr htr).choose_spec.choose_spec.2.2
    · intro n i p T hn hi hpT
      have := hr n i T hn hi
      obtain ⟨T', h1, h2, h3⟩ := (hs.mem i).1 (List.mem_of_getElem? hn)
      rw [hi] at h1
      obtain rfl := Option.some.inj h1
      have hk' : ((T.2.drop (start - T.1)).take size)[k]? = some p := by
        rw [List.getElem?_take_of_lt hk, List.getElem?_drop, ← hpT]
        congr 1
        omega
      constructor
      · unfold get2
        rw [this]
        exact hk'
      · rw [List.getElem?_map, this]
        unfold get2
        rw [List.getElem?_eq_getElem hf]
        exact (hg _ (List.mem_of_getElem? this) p hk').symm
  choose! rows hrows using hrow
  refine ⟨sel, (List.range size).map rows, hs, hl, ?_, by simp, ?_⟩
  · apply TreeIndex.mapM_ok_of
    intro k hk
    exact (hrows k hk).1
  · intro k hk
    obtain ⟨-, h2, h3⟩ := hrows k (List.mem_range.2 hk)
    exact ⟨rows k, by simp [hk], h2, h3⟩

/-- C168. In an experiment whose first time is 0, the trajectories that are kept are those that exist at all the times of the window, in their
order, and the positions read at each time are theirs. -/
theorem C168_select_partial {frames : List (List V)} {trajs : List (Nat × List Nat)} (hc : Consistent (frames.map List.length) trajs) {start size : Nat}
    (hw : start + size ≤ frames.length) :
    ∃ sel pos, Spanning trajs start size sel ∧ (readTrajs start size trajs).length = sel.length
      ∧ readPos 0 start size frames (readTrajs start size trajs) = .ok pos ∧ pos.length = size
      ∧ ∀ k < size, ∃ row, pos[k]? = some row ∧ row.length = sel.length ∧ ∀ (n i p : Nat), sel[n]? = some i →
        At trajs (start + k) p i → get2 (readTrajs start size trajs) n k = some p ∧ row[n]? = get2 frames (start + k) p := by
  obtain ⟨sel, pos, h1, h2, h3, h4, h5⟩ := read_ok (offset := 0) (frames := frames) (trajs := trajs) (start := start) (size := size) (by omega) (by
    intro k hk i p T hT h1 h2 h3
    obtain ⟨n, hn, hlt⟩ := hc.exists_ (start + k) p i ⟨T, start + k - T.1, hT, h3, by omega⟩
    rw [List.getElem?_map, Option.map_eq_some_iff] at hn
    obtain ⟨f, hf, rfl⟩ := hn
    exact ⟨f, f[p], by simpa using hf, List.getElem?_eq_getElem hlt⟩) (by omega)
  refine ⟨sel, pos, h1, h2, h3, h4, ?_⟩
  intro k hk
  obtain ⟨row, r1, r2, r3⟩ := h5 k hk
  refine ⟨row, r1, r2, ?_⟩
  rintro n i p hn ⟨T, dt, hT, hp, ht⟩
  have := r3 n i p T hn hT (by rw [ht]; simpa using hp)
  simpa using this

/-- C168 fails when the first time of the experiment is not 0: the numbers of the steps of the trajectories are counted from the first file and
the window is not. By default no trajectory is kept, and the constructor fails. -/
theorem C168_offset_counterexample {offset : Nat} (ho : 0 < offset) {frames : List (List V)} {trajs : List (Nat × List Nat)}
    (hc : Consistent (frames.map List.length) trajs) : make offset frames trajs none none = .error .logicError := by
  unfold make
  rw [(C168_window offset frames.length none none).2.2.2]
  by_cases h0 : frames = []
  · rw [if_pos]
    right
    simp [h0]
  rw [if_pos]
  left
  unfold readTrajs
  rw [List.filterMap_eq_nil_iff]
  intro T hT
  dsimp only
  rw [if_neg]
  rintro ⟨h1, h2⟩
  have hpos := List.length_pos_of_ne_nil h0
  obtain ⟨i, hi⟩ := List.mem_iff_getElem?.1 hT
  have hlen : 0 < T.2.length := by omega
  have hat : At trajs (T.1 + (T.2.length - 1)) T.2[T.2.length - 1] i := ⟨T, _, hi, List.getElem?_eq_getElem (by omega), rfl⟩
  obtain ⟨n, hn, -⟩ := hc.exists_ _ _ _ hat
  have := (List.getElem?_eq_some_iff.1 hn).1
  rw [List.length_map] at this
  omega

/-- C168 fails when the first time of the experiment is not 0 and a window is asked: the position of another particle is read. Here two particles
exchange their indices at each time; the first one is always at the origin. -/
theorem C168_mixed_counterexample : ∃ (frames : List (List V)) (trajs : List (Nat × List Nat)) (a : V), a ≠ 0 ∧
    (∀ t p, At trajs t p 0 → get2 frames t p = some 0) ∧ ∃ row, readPos 1 1 1 frames (readTrajs 1 1 trajs) = .ok [row] ∧ row[0]? = some a := by
  refine ⟨[[0, fun _ => 1], [fun _ => 1, 0]], [(0, [0, 1]), (0, [1, 0])], fun _ => 1, ?_, ?_, ?_⟩
  · intro h
    have := congrFun h 0
    simp at this
  · rintro t p ⟨T, dt, hT, hp, rfl⟩
    simp at hT
    subst hT
    obtain ⟨hlt, hp⟩ := List.getElem?_eq_some_iff.1 hp
    have hlt : dt < 2 := by simpa using hlt
    rcases (by omega : dt = 0 ∨ dt = 1) with rfl | rfl
    · simp at hp
      subst hp
      rfl
    · simp at hp
      subst hp
      rfl
  · refine ⟨[fun _ => 1, 0], ?_, rfl⟩
    have : readTrajs 1 1 [(0, [0, 1]), (0, [1, 0])] = [[1], [0]] := by decide +kernel
    rw [this]
    rfl

example : Spanning [(0, [0, 1]), (1, [1])] 0 2 [0] := by
  refine ⟨by simp, ?_⟩
  intro i
  constructor
  · intro h
    rw [List.mem_singleton.1 h]
    exact ⟨_, rfl, by decide, by decide⟩
  · rintro ⟨T, hT, h1, h2⟩
    obtain ⟨hi, rfl⟩ := List.getElem?_eq_some_iff.1 hT
    have hi : i < 2 := by simpa using hi
    rcases (by omega : i = 0 ∨ i = 1) with rfl | rfl
    · simp
    · simp at h1

/-! ## Drift -/

theorem cumsum_get (l : List V) (t : Nat) : (cumsum l)[t]? = if t < l.length then some (l.take (t + 1)).sum else none := by
  unfold cumsum
  rw [List.getElem?_map]
  by_cases h : t < l.length
  · rw [if_pos h, List.getElem?_range h]; rfl
  · rw [if_neg h, List.getElem?_eq_none (by simpa using h)]; rfl

theorem sum_zipWith_sub (a b : List V) (h : a.length = b.length) : (List.zipWith (fun x y => x - y) a b).sum = a.sum - b.sum := by
  induction a generalizing b with
  | nil =>
    cases b with
    | nil => simp
    | cons y b => simp at h
  | cons x a ih =>
    cases b with
    | nil => simp at h
    | cons y b =>
      simp only [List.zipWith_cons_cons, List.sum_cons]
      rw [ih b (by simpa using h)]
      abel

theorem mean_diff (a b : List V) (h : a.length = b.length) : mean (List.zipWith (fun x y => x - y) a b) = mean a - mean b := by
  unfold mean
  rw [sum_zipWith_sub a b h, List.length_zipWith, h, min_self, smul_sub]

/-- The drift is the displacement of the mean since the first time. -/
theorem cumsum_means {pos : List (List V)} {N : Nat} (hN : ∀ row ∈ pos, row.length = N) (t : Nat) (r0 rt : List V) (h0 : pos[0]? = some r0)
    (ht : pos[t + 1]? = some rt) : (cumsum ((diff pos).map mean))[t]? = some (mean rt - mean r0) := by
  have hlen : (diff pos).length = pos.length - 1 := by
    unfold diff
    rw [List.length_zipWith, List.length_drop, List.length_dropLast, min_self]
  have hlt := (List.getElem?_eq_some_iff.1 ht).1
  have hget : ∀ (s : Nat) (a b : List V), pos[s]? = some a → pos[s + 1]? = some b → ((diff pos).map mean)[s]? = some (mean b - mean a) := by
    intro s a b ha hb
    have hlb := (List.getElem?_eq_some_iff.1 hb).1
    rw [List.getElem?_map]
    unfold diff
    rw [List.getElem?_zipWith, List.getElem?_drop, List.getElem?_dropLast, if_pos (by omega), ha, Nat.add_comm 1 s, hb]
    simp only [Option.map_some]
    rw [mean_diff b a (by rw [hN b (List.mem_of_getElem? hb), hN a (List.mem_of_getElem? ha)])]
  rw [cumsum_get, if_pos (by rw [List.length_map, hlen]; omega)]
  congr 1
  clear hlen
  induction t generalizing rt with
  | zero =>
    have := hget 0 r0 rt h0 ht
    rw [List.take_one, List.head?_eq_getElem?, this]
    simp
  | succ t ih =>
    obtain ⟨r, hr⟩ : ∃ r, pos[t + 1]? = some r := ⟨_, List.getElem?_eq_getElem (by omega)⟩
    rw [List.take_add_one, List.sum_append, ih r hr (by omega), hget (t + 1) r rt hr ht]
    simp

/-- C169. `remove_drift` removes from all the particles at each time the displacement of their mean position since the first time, and nothing
else: the mean position does not change any more with time, distances at a given time and the first positions are kept. -/
theorem C169_drift {pos : List (List V)} {N : Nat} (hN : ∀ row ∈ pos, row.length = N) (hpos : 0 < N) (r0 : List V) (h0 : pos[0]? = some r0) :
    (removeDrift pos).length = pos.length ∧ (removeDrift pos)[0]? = some r0
      ∧ ∀ (t : Nat) (row : List V), pos[t]? = some row → ∃ d row', (removeDrift pos)[t]? = some row' ∧ row' = row.map (fun v => v - d) ∧ mean row' = mean r0 := by
  have hmean : ∀ row : List V, row.length = N → ∀ d : V, mean (row.map fun v => v - d) = mean row - d := by
    intro row hl d
    unfold mean
    have e : (row.map fun v => v - d).sum = row.sum - (row.length : ℝ) • d := by
      clear hl
      induction row with
      | nil => simp
      | cons v row ih =>
        simp only [List.map_cons, List.sum_cons, List.length_cons, ih]
        push_cast
        rw [add_smul, one_smul]
        abel
    rw [e, List.length_map, smul_sub, smul_smul]
    have : (row.length : ℝ) ≠ 0 := by
      rw [hl]
      exact_mod_cast hpos.ne'
    rw [one_div, inv_mul_cancel₀ this, one_smul]
  have hplen : 0 < pos.length := (List.getElem?_eq_some_iff.1 h0).1
  have ht1 : (pos.take 1).length = 1 := by rw [List.length_take]; omega
  have hfirst : (removeDrift pos)[0]? = some r0 := by
    unfold removeDrift
    rw [List.getElem?_append_left (by omega), List.getElem?_take_of_lt (by omega), h0]
  have hcl : (cumsum ((diff pos).map mean)).length = pos.length - 1 := by
    unfold cumsum diff
    simp
  refine ⟨?_, hfirst, ?_⟩
  · unfold removeDrift
    rw [List.length_append, List.length_zipWith, List.length_drop, hcl, ht1]
    omega
  · intro t row hrow
    cases t with
    | zero =>
      rw [h0] at hrow
      obtain rfl := Option.some.inj hrow
      exact ⟨0, r0, hfirst, by simp, rfl⟩
    | succ t =>
      refine ⟨mean row - mean r0, _, ?_, rfl, ?_⟩
      · unfold removeDrift
        rw [List.getElem?_append_right (by omega), ht1, Nat.add_sub_cancel, List.getElem?_zipWith, List.getElem?_drop, Nat.add_comm 1 t, hrow,
          cumsum_means hN t r0 row h0 hrow]
      · rw [hmean row (hN row (List.mem_of_getElem? hrow))]
        abel

example : ∀ row ∈ ([[fun _ => 0, fun _ => 1], [fun _ => 2, fun _ => 3]] : List (List V)), row.length = 2 := by simp

/-- C169. All in all, the constructor gives for an experiment whose first time is 0 the trajectories that exist during the window, with the
positions in the files but for a displacement that is the same for all and that makes their mean constant. -/
theorem C169_constructor_partial {frames : List (List V)} {trajs : List (Nat × List Nat)} (hc : Consistent (frames.map List.length) trajs) {start size : Nat}
    (hw : start + size ≤ frames.length) (hsize : 0 < size) (hex : ∃ T ∈ trajs, T.1 ≤ start ∧ start + size ≤ T.1 + T.2.length) :
    ∃ sel tr pos m, make 0 frames trajs (some start) (some size) = .ok (tr, pos) ∧ Spanning trajs start size sel ∧ tr.length = sel.length ∧ pos.length = size
      ∧ ∀ k < size, ∃ row d, pos[k]? = some row ∧ row.length = sel.length ∧ mean row = m ∧ (k = 0 → d = 0)
        ∧ ∀ (n i p : Nat), sel[n]? = some i → At trajs (start + k) p i → get2 tr n k = some p ∧ row[n]? = (get2 frames (start + k) p).map fun v => v - d := by
  obtain ⟨sel, raw, h1, h2, h3, h4, h5⟩ := C168_select_partial hc hw
  have hsel : 0 < sel.length := by
    obtain ⟨T, hT, h⟩ := hex
    obtain ⟨i, hi⟩ := List.mem_iff_getElem?.1 hT
    exact List.length_pos_of_mem ((h1.mem i).2 ⟨T, hi, h⟩)
  have hrows : ∀ row ∈ raw, row.length = sel.length := by
    intro row hrow
    obtain ⟨k, hk⟩ := List.mem_iff_getElem?.1 hrow
    obtain ⟨row', r1, r2, -⟩ := h5 k (by rw [← h4]; exact (List.getElem?_eq_some_iff.1 hk).1)
    rw [hk] at r1
    rw [Option.some.inj r1]
    exact r2
  obtain ⟨r0, q1, q2, -⟩ := h5 0 hsize
  obtain ⟨d1, d2, d3⟩ := C169_drift hrows hsel r0 q1
  refine ⟨sel, readTrajs start size trajs, removeDrift raw, mean r0, ?_, h1, h2, by rw [d1, h4], ?_⟩
  · unfold make
    have hclip := (C168_window 0 frames.length (some (start : Int)) (some (size : Int))).2.2.1 start size rfl rfl (by omega) (by omega)
    rw [hclip]
    simp only
    rw [if_neg]
    · simp only [Int.toNat_natCast]
      rw [h3]
      rfl
    · rintro (h | h)
      · rw [← h2, h] at hsel
        simp at hsel
      · omega
  · intro k hk
    obtain ⟨row, r1, r2, r3⟩ := h5 k hk
    by_cases h0 : k = 0
    · subst h0
      rw [q1] at r1
      obtain rfl := Option.some.inj r1
      refine ⟨r0, 0, d2, r2, rfl, fun _ => rfl, ?_⟩
      intro n i p hn hat
      obtain ⟨a, b⟩ := r3 n i p hn hat
      exact ⟨a, by rw [b]; simp⟩
    · obtain ⟨d, row', e1, e2, e3⟩ := d3 k row r1
      refine ⟨row', d, e1, by rw [e2, List.length_map, r2], e3, fun h => absurd h h0, ?_⟩
      intro n i p hn hat
      obtain ⟨a, b⟩ := r3 n i p hn hat
      exact ⟨a, by rw [e2, List.getElem?_map, b]⟩

end Txp
end Py
end Colloids
