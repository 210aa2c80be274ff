import Verif.Dyn.Lemmas
import Verif.Index.Props
import Mathlib.Tactic.FinCases
import Mathlib.Tactic.NormNum
import Mathlib.Algebra.Order.Ring.Rat

/-! # C41, C43: trajectories spanning an interval, and removal of the drift -/

namespace Colloids
namespace Dyn

variable {G : Type} [Field G] [LinearOrder G]

/-! ## C43 -/

/-- C43. Without a spatio-temporal index, for frames that exist, `selectSpanning` returns exactly the
trajectories that exist at every time of the interval, in increasing order and once each. Missing: the
answers of a spatio-temporal index, see `C43_index_counterexample`. -/
theorem C43_spanning_partial {D : DynParts G} (hw : Wf D) (hi : D.index = none) {t0 t1 : Nat} (h01 : t0 ≤ t1)
    (h1 : t1 < D.positions.length) :
    ∃ l, selectSpanning D t0 t1 = .ok l ∧ l.Pairwise (· < ·) ∧
      ∀ tr, tr ∈ l ↔ ∀ t, t0 ≤ t → t ≤ t1 → Exists D tr t := by
  obtain ⟨a, ha, -⟩ := hw.row (t := t0) (ps := D.positions[t0]) (by simp)
  obtain ⟨b, hb, -⟩ := hw.row (t := t1) (ps := D.positions[t1]) (by simp)
  refine ⟨Boo.setIntersection (sortUnique a) (sortUnique b), ?_, setIntersection_sorted (sortUnique_sorted _),
    ?_⟩
  · unfold selectSpanning
    rw [hi]
    simp only [getR_ok.2 ha, getR_ok.2 hb, ok_bind]
    rfl
  · intro tr
    rw [mem_setIntersection' (sortUnique_sorted _) (sortUnique_sorted _), mem_sortUnique, mem_sortUnique,
      ← exists_iff_mem hw ha, ← exists_iff_mem hw hb]
    constructor
    · rintro ⟨⟨T, h2, h3, h4⟩, ⟨T', h5, h6, h7⟩⟩ t h8 h9
      rw [h2] at h5; cases h5
      exact ⟨T, h2, by omega, by omega⟩
    · intro h
      exact ⟨h t0 (le_refl _) h01, h t1 h01 (le_refl _)⟩

omit [Field G] [LinearOrder G] in
/-- C43. An interval that ends after the last frame reads outside the containers. -/
theorem C43_out_of_range [Field G] [LinearOrder G] {D : DynParts G} (hw : Wf D) (hi : D.index = none)
    {t0 t1 : Nat} (h1 : D.positions.length ≤ t1) :
    selectSpanning D t0 t1 = .error .ub := by
  have hl : D.trajectories.inverse.length = D.positions.length := by
    have := congrArg List.length hw.frames
    simpa using this
  unfold selectSpanning
  rw [hi]
  simp only
  cases h : getR D.trajectories.inverse t0 with
  | error e =>
    by_cases h0 : t0 < D.trajectories.inverse.length
    · rw [getR_of_lt h0] at h; cases h
    · rw [getR_eq_ub (by omega)] at h; cases h; rfl
  | ok a => rw [ok_bind, getR_eq_ub (by omega)]; rfl

/-- Two trajectories in three frames: the second one starts at time 1 and its positions are numbered
first. -/
def exDyn : DynParts ℚ :=
  ⟨[⟨[![0, 0, 0]], ⟨fun _ => 0, fun _ => 10⟩, 1, none⟩,
    ⟨[![5, 5, 5], ![1, 0, 0]], ⟨fun _ => 0, fun _ => 10⟩, 1, none⟩,
    ⟨[![5, 6, 5], ![3, 0, 0]], ⟨fun _ => 0, fun _ => 10⟩, 1, none⟩],
   ⟨[⟨0, [0, 1, 1]⟩, ⟨1, [0, 0]⟩], [[0], [1, 0], [1, 0]]⟩, 1, none, []⟩

/-- `exDyn` satisfies the hypotheses of the theorems. -/
theorem exDyn_wf : Wf exDyn := by
  refine ⟨by decide, by decide, by decide, by decide, ?_⟩
  intro t p tr
  rw [invert_ok]
  unfold TrajIndex.convert
  rw [bind_ok]
  simp only [getR_ok]
  match tr with
  | 0 =>
    simp only [exDyn, List.getElem?_cons_zero, Option.some.injEq, exists_eq_left']
    rw [at_eq (by simp) (by simp [szMod])]
    match t with
    | 0 | 1 | 2 | _ + 3 =>
      match p with
      | 0 | 1 | _ + 2 => simp
  | 1 =>
    simp only [exDyn, List.getElem?_cons_zero, List.getElem?_cons_succ, Option.some.injEq, exists_eq_left']
    rw [at_eq (by simp) (by simp [szMod])]
    match t with
    | 0 | 1 | 2 | _ + 3 =>
      match p with
      | 0 | 1 | _ + 2 => simp
  | tr + 2 =>
    match t with
    | 0 | 1 | 2 | _ + 3 =>
      match p with
      | 0 | 1 | _ + 2 => simp [exDyn]

example : ∃ l, selectSpanning exDyn 0 2 = .ok l ∧ 0 ∈ l ∧ 1 ∉ l := by
  obtain ⟨l, h1, -, h3⟩ := C43_spanning_partial exDyn_wf rfl (t0 := 0) (t1 := 2) (by omega) (by decide)
  refine ⟨l, h1, (h3 0).2 ?_, fun h => ?_⟩
  · intro t _ ht
    exact ⟨⟨0, [0, 1, 1]⟩, rfl, by simp, by simp; omega⟩
  · obtain ⟨T, h, h', -⟩ := (h3 1).1 h 0 (by omega) (by omega)
    cases h
    simp at h'

/-- C43. With the temporal index of the library, `selectSpanning` may return a trajectory that does not
span the interval: here trajectory 0 exists at times 0 to 2 and is returned for the interval from 1 to 3. -/
theorem C43_index_counterexample :
    ∃ s, (⟨.null, []⟩ : TreeIndex).insertAll [(0, 0, 2), (1, 1, 3)] = .ok s ∧
      ∀ D : DynParts G, D.trajectories.trajs = [⟨0, [0, 0, 0]⟩, ⟨1, [1, 1, 0]⟩] →
        (∀ ix, D.index = some ix → ix.spanning 1 3 = s.select (1, 3)) → D.index ≠ none →
        ∃ l, selectSpanning D 1 3 = .ok l ∧ 0 ∈ l ∧ ¬ Exists D 0 3 := by
  obtain ⟨s, L, h1, h2, -, h4⟩ := C29_query_partial [(0, 0, 2), (1, 1, 3)] (1, 3) ⟨(1, 1, 3), by simp, by simp⟩
  refine ⟨s, h1, ?_⟩
  intro D hT hs hne
  cases hix : D.index with
  | none => exact absurd hix hne
  | some ix =>
    refine ⟨L, ?_, (h4 0).2 ⟨(0, 0, 2), by simp, by simp, by simp, by simp⟩, ?_⟩
    · unfold selectSpanning
      rw [hix]
      simp only
      rw [hs ix hix, h2]
    · rintro ⟨T, h5, h6, h7⟩
      rw [hT] at h5
      simp only [List.getElem?_cons_zero, Option.some.injEq] at h5
      subst h5
      simp at h7

/-! ## C41 -/

/-- The sum over `sel` of the displacements between two times. -/
def SumDispl (D : DynParts G) (sel : List Nat) (t0 t1 : Nat) (s : Coord G) : Prop :=
  ∃ x : Nat → Nat → Coord G, (∀ tr ∈ sel, at_ D tr t0 = .ok (x tr t0) ∧ at_ D tr t1 = .ok (x tr t1)) ∧
    s = (sel.map (fun tr => x tr t1 - x tr t0)).sum

variable [IsStrictOrderedRing G]

omit [LinearOrder G] [IsStrictOrderedRing G] in
theorem sum_map_add_const (sel : List Nat) (g : Nat → Coord G) (c : Coord G) (a : Fin 3) :
    (sel.map (fun tr => g tr + c)).sum a = (sel.map g).sum a + (sel.length : G) * c a := by
  induction sel with
  | nil => simp
  | cons x l ih =>
    simp only [List.map_cons, List.sum_cons, Pi.add_apply, ih, List.length_cons, Nat.cast_add,
      Nat.cast_one]
    ring

/-- What `removeDrift` does, for any selection of trajectories that span consecutive frames. -/
theorem removeDrift_spec {D : DynParts G} (hw : Wf D)
    (hsel : ∀ t, t + 1 < D.positions.length → ∃ sel, driftSelection D t = .ok sel ∧
      ∀ tr ∈ sel, Exists D tr t ∧ Exists D tr (t + 1)) :
    ∃ (v : Nat → Coord G) (D' : DynParts G), removeDrift D = .ok D' ∧ D'.trajectories = D.trajectories ∧
      D'.index = none ∧ D'.radius = D.radius ∧
      (∀ t : Nat, D'.positions[t]? = (D.positions[t]?).map (fun ps : Particles G => ps.translate (v t))) ∧
      (∀ t < D.positions.length, ∀ a, 0 ≤ v t a) ∧
      (0 < D.positions.length → ∀ a, ∃ t < D.positions.length, v t a = 0) ∧
      (∀ t, t + 1 < D.positions.length → ∀ sel, driftSelection D t = .ok sel →
        (sel.length < 2 → v (t + 1) = v t) ∧
        (2 ≤ sel.length → SumDispl D' sel t (t + 1) 0)) := by
  classical
  -- the places of the selected trajectories
  choose! sel hs1 hs2 using hsel
  have hplace : ∃ f : Nat → Nat → Coord G, ∀ tr t x, at_ D tr t = .ok x → x = f tr t := by
    refine ⟨fun tr t => match at_ D tr t with | .ok x => x | .error _ => 0, ?_⟩
    intro tr t x h
    simp only [h]
  obtain ⟨f, hf⟩ := hplace
  have hat : ∀ tr t, Exists D tr t → at_ D tr t = .ok (f tr t) := by
    intro tr t h
    obtain ⟨x, hx⟩ := (at_ok hw).1 h
    rw [hx, hf tr t x hx]
  let drift : Nat → Coord G := fun t => if (sel t).length < 2 then 0 else
      fun a => ((sel t).map (fun tr => f tr (t + 1) - f tr t)).sum a / ((sel t).length : G)
  have hdrift : ∀ t, t + 1 < D.positions.length → ∀ u, getDrift D t u = .ok (drift t) := by
    intro t ht u
    unfold getDrift
    rw [hs1 t ht, ok_bind]
    exact getDriftOf_eq (fun tr htr => ⟨hat _ _ (hs2 t ht tr htr).1, hat _ _ (hs2 t ht tr htr).2⟩)
  let n := D.positions.length
  let rel : Nat → Coord G := fun t => if t = 0 then 0 else -drift (t - 1)
  have hrel : (List.range n).mapM (fun t =>
      if t = 0 then pure (0 : Coord G) else do
        let d ← getDrift D (t - 1) t
        pure (-d)) = .ok (tab n rel) := by
    apply mapM_tab
    intro t ht
    by_cases h0 : t = 0
    · simp [rel, h0, pure_eq_ok]
    · rw [if_neg h0, hdrift (t - 1) (by omega) t, ok_bind]
      simp only [rel, if_neg h0]
      rfl
  let drifts := partialSum (tab n rel)
  let mn := (drifts.drop 1).foldl
    (fun (m : Coord G) d => fun a => if d a < m a then d a else m a) 0
  have hlen : drifts.length = n := by simp [drifts, partialSum_length, tab_length]
  let v : Nat → Coord G := fun t => drifts[t]?.getD 0 - mn
  refine ⟨v, { D with
    positions := List.zipWith (fun ps d => ps.translate (d - mn)) D.positions drifts
    index := none }, ?_, rfl, rfl, rfl, ?_, ?_, ?_, ?_⟩
  · unfold removeDrift
    rw [hrel, ok_bind]
    rfl
  · intro t
    show (List.zipWith (fun ps d => ps.translate (d - mn)) D.positions drifts)[t]? = _
    rw [List.getElem?_zipWith]
    by_cases ht : t < n
    · have h1 : D.positions[t]? = some (D.positions[t]'ht) := by simp
      have h2 : drifts[t]? = some (drifts[t]'(by omega)) := by simp
      simp only [v, h2, h1]
      rfl
    · have h1 : D.positions[t]? = none := by simp; omega
      simp [h1]
  all_goals
    have hv0 : n ≠ 0 → drifts[0]? = some 0 := by
      intro hn
      obtain ⟨m, hm⟩ := Nat.exists_eq_succ_of_ne_zero hn
      simp only [drifts]
      rw [hm]
      simp [tab, List.range_succ_eq_map, partialSum, rel]
  · intro t ht a
    have hspec := foldl_min_le (drifts.drop 1) 0 a
    simp only at hspec
    show 0 ≤ (drifts[t]?.getD 0 - mn) a
    rw [Pi.sub_apply, sub_nonneg]
    by_cases h0 : t = 0
    · subst h0
      rw [hv0 (by simp only [n]; omega)]
      exact hspec.1
    · have h2 : drifts[t]? = some (drifts[t]'(by omega)) := by simp
      rw [h2]
      apply hspec.2.1
      rw [List.mem_iff_getElem?]
      exact ⟨t - 1, by rw [List.getElem?_drop, show 1 + (t - 1) = t by omega]; exact h2⟩
  · intro hn a
    have hspec := foldl_min_le (drifts.drop 1) 0 a
    simp only at hspec
    rcases hspec.2.2 with h | ⟨d, hd, h⟩
    · refine ⟨0, hn, ?_⟩
      show (drifts[0]?.getD 0 - mn) a = 0
      rw [hv0 (by simp only [n]; omega), Pi.sub_apply, sub_eq_zero]
      exact h.symm
    · obtain ⟨i, hi⟩ := List.mem_iff_getElem?.1 hd
      rw [List.getElem?_drop] at hi
      have := (List.getElem?_eq_some_iff.1 hi).1
      refine ⟨1 + i, by simp only [n] at hlen; omega, ?_⟩
      show (drifts[1 + i]?.getD 0 - mn) a = 0
      rw [hi, Pi.sub_apply, sub_eq_zero]
      exact h.symm
  · intro t ht s hs
    have hs' : s = sel t := by
      have := hs1 t ht
      rw [this] at hs
      cases hs
      rfl
    subst hs'
    obtain ⟨y, hy1, hy2⟩ := partialSum_step (tab n rel) t (rel (t + 1))
      (by rw [← getR_ok]; exact getR_tab ht)
    have hstep : v (t + 1) = v t - drift t := by
      show (partialSum (tab n rel))[t + 1]?.getD 0 - mn = (partialSum (tab n rel))[t]?.getD 0 - mn - drift t
      rw [hy1, hy2]
      simp only [rel, Option.getD_some]
      rw [if_neg (by omega), Nat.add_sub_cancel]
      abel
    refine ⟨?_, ?_⟩
    · intro hlt
      rw [hstep]
      simp only [drift, if_pos hlt, sub_zero]
    · intro hge
      refine ⟨fun tr u => f tr u + v u, ?_, ?_⟩
      · intro tr htr
        have hsp := hs2 t ht tr htr
        have hpos : ∀ u : Nat, (List.zipWith (fun ps d => ps.translate (d - mn)) D.positions drifts)[u]?
            = (D.positions[u]?).map (fun ps : Particles G => ps.translate (v u)) := by
          intro u
          rw [List.getElem?_zipWith]
          by_cases hu : u < n
          · have h1 : D.positions[u]? = some (D.positions[u]'hu) := by simp
            have h2 : drifts[u]? = some (drifts[u]'(by omega)) := by simp
            simp only [v, h2, h1]
            rfl
          · have h1 : D.positions[u]? = none := by simp; omega
            simp [h1]
        constructor
        · rw [at_translate (D := D) (D' := { D with positions := _, index := none }) v rfl hpos, hat _ _ hsp.1]; rfl
        · rw [at_translate (D := D) (D' := { D with positions := _, index := none }) v rfl hpos, hat _ _ hsp.2]; rfl
      · have hcomm : (fun tr => f tr (t + 1) + v (t + 1) - (f tr t + v t))
            = fun tr => (f tr (t + 1) - f tr t) + (-drift t) := by
          funext tr
          rw [hstep]
          abel
        rw [hcomm]
        funext a
        rw [sum_map_add_const]
        have hne : ((sel t).length : G) ≠ 0 := by
          have : (sel t).length ≠ 0 := by omega
          exact_mod_cast this
        simp only [Pi.zero_apply, Pi.neg_apply, drift, if_neg (show ¬ (sel t).length < 2 by omega)]
        field_simp
        ring

/-- The selection used for the drift without index: exactly the trajectories that exist in both frames. -/
theorem driftSelection_spec {D : DynParts G} (hw : Wf D) (hi : D.index = none) {t : Nat}
    (ht : t + 1 < D.positions.length) :
    ∃ l, driftSelection D t = .ok l ∧ l.Pairwise (· < ·) ∧
      ∀ tr, tr ∈ l ↔ Exists D tr t ∧ Exists D tr (t + 1) := by
  obtain ⟨l, h1, h2, h3⟩ := C43_spanning_partial hw hi (Nat.le_succ t) ht
  refine ⟨l, ?_, h2, ?_⟩
  · unfold driftSelection
    rw [hi]
    exact h1
  · intro tr
    rw [h3]
    constructor
    · intro h
      exact ⟨h t (le_refl _) (by omega), h (t + 1) (by omega) (le_refl _)⟩
    · rintro ⟨h4, h5⟩ u hu1 hu2
      have : u = t ∨ u = t + 1 := by omega
      rcases this with rfl | rfl
      · exact h4
      · exact h5

theorem sorted_ext {l l' : List Nat} (h : l.Pairwise (· < ·)) (h' : l'.Pairwise (· < ·))
    (hm : ∀ x, x ∈ l ↔ x ∈ l') : l = l' := by
  have : l.Perm l' := (List.perm_ext_iff_of_nodup (h.imp (fun h => Nat.ne_of_lt h))
    (h'.imp (fun h => Nat.ne_of_lt h))).2 hm
  exact this.eq_of_pairwise (le := (· < ·)) (fun a b _ _ h1 h2 => absurd h1 (by omega)) h h'

/-- C41. Without a spatio-temporal index, `removeDrift` translates each frame. The translations are not
negative along any axis and each axis has a frame that is not moved. The trajectories are kept, and for
all consecutive frames shared by two trajectories or more, the sum of the displacements of the shared
trajectories is null afterwards. Missing: one shared trajectory only, see `C41_single_counterexample`. -/
theorem C41_removeDrift_partial {D : DynParts G} (hw : Wf D) (hi : D.index = none) :
    ∃ (v : Nat → Coord G) (D' : DynParts G), removeDrift D = .ok D' ∧ D'.trajectories = D.trajectories ∧
      (∀ t : Nat, D'.positions[t]? = (D.positions[t]?).map (fun ps : Particles G => ps.translate (v t))) ∧
      (∀ t < D.positions.length, ∀ a, 0 ≤ v t a) ∧
      (0 < D.positions.length → ∀ a, ∃ t < D.positions.length, v t a = 0) ∧
      (∀ t, t + 1 < D.positions.length → ∀ sel : List Nat, sel.Pairwise (· < ·) →
        (∀ tr, tr ∈ sel ↔ Exists D tr t ∧ Exists D tr (t + 1)) → 2 ≤ sel.length →
        SumDispl D' sel t (t + 1) 0) := by
  obtain ⟨v, D', h1, h2, -, -, h3, h4, h5, h6⟩ := removeDrift_spec hw (fun t ht => by
    obtain ⟨l, k1, -, k3⟩ := driftSelection_spec hw hi ht
    exact ⟨l, k1, fun tr htr => (k3 tr).1 htr⟩)
  refine ⟨v, D', h1, h2, h3, h4, h5, ?_⟩
  intro t ht sel hs hm hl
  obtain ⟨l, k1, k2, k3⟩ := driftSelection_spec hw hi ht
  have : sel = l := sorted_ext hs k2 (fun tr => by rw [k3, hm])
  subst this
  exact (h6 t ht sel k1).2 hl

/-- C41. With a spatio-temporal index, whatever the trajectories it answers among those that exist in both
frames, their sum of displacements is null afterwards. -/
theorem C41_index_partial {D : DynParts G} (hw : Wf D)
    (hsel : ∀ t, t + 1 < D.positions.length → ∃ sel, driftSelection D t = .ok sel ∧
      ∀ tr ∈ sel, Exists D tr t ∧ Exists D tr (t + 1)) :
    ∃ D', removeDrift D = .ok D' ∧ D'.index = none ∧
      ∀ t, t + 1 < D.positions.length → ∀ sel, driftSelection D t = .ok sel → 2 ≤ sel.length →
        SumDispl D' sel t (t + 1) 0 := by
  obtain ⟨v, D', h1, -, h2, -, -, -, -, h6⟩ := removeDrift_spec hw hsel
  exact ⟨D', h1, h2, fun t ht sel hs => (h6 t ht sel hs).2⟩

/-- C41. `removeDrift` does not change the displacement from a particle to another in the same frame. -/
theorem C41_same_frame {D : DynParts G} (hw : Wf D) (hi : D.index = none) {D' : DynParts G}
    (h : removeDrift D = .ok D') (tr tr' t : Nat) (x y : Coord G) (hx : at_ D tr t = .ok x)
    (hy : at_ D tr' t = .ok y) :
    ∃ x' y', at_ D' tr t = .ok x' ∧ at_ D' tr' t = .ok y' ∧ y' - x' = y - x := by
  obtain ⟨v, D'', h1, h2, h3, -⟩ := C41_removeDrift_partial hw hi
  rw [h] at h1
  cases h1
  refine ⟨x + v t, y + v t, ?_, ?_, by abel⟩
  · rw [at_translate v h2 h3, hx]; rfl
  · rw [at_translate v h2 h3, hy]; rfl

theorem wf_translate {D D' : DynParts G} (hw : Wf D) (v : Nat → Coord G)
    (h2 : D'.trajectories = D.trajectories)
    (h3 : ∀ t : Nat, D'.positions[t]? = (D.positions[t]?).map (fun ps : Particles G => ps.translate (v t))) :
    Wf D' := by
  have hl : D'.positions.length = D.positions.length := by
    apply le_antisymm
    · have := h3 D.positions.length
      simpa using this
    · have := h3 D'.positions.length
      simpa using this.symm
  refine ⟨?_, ?_, ?_, ?_, ?_⟩
  · rw [h2]; exact hw.nonempty
  · rw [h2, hl]; exact hw.fits
  · rw [hl]; exact hw.size
  · rw [h2, hw.frames]
    apply List.ext_getElem?
    intro i
    rw [List.getElem?_map, List.getElem?_map, h3]
    cases D.positions[i]? with
    | none => rfl
    | some ps => simp [Particles.translate]
  · rw [h2]; exact hw.inverse

/-- Shifts that do not change from a frame to the next are null. -/
theorem shifts_null {D D' : DynParts G} (hw : Wf D) (w : Nat → Coord G)
    (g2 : D'.trajectories = D.trajectories)
    (g3 : ∀ t : Nat, D'.positions[t]? = (D.positions[t]?).map (fun ps : Particles G => ps.translate (w t)))
    (g5 : 0 < D.positions.length → ∀ a, ∃ t < D.positions.length, w t a = 0)
    (hstep : ∀ t, t + 1 < D.positions.length → w (t + 1) = w t) (tr t : Nat) : at_ D' tr t = at_ D tr t := by
  have hconst : ∀ t < D.positions.length, w t = w 0 := by
    intro t
    induction t with
    | zero => intro _; rfl
    | succ t ih => intro ht; rw [hstep t ht, ih (by omega)]
  have hzero : ∀ t < D.positions.length, w t = 0 := by
    intro t ht
    funext a
    obtain ⟨u, hu, hu0⟩ := g5 (by omega) a
    rw [hconst t ht, ← hconst u hu]
    exact hu0
  rw [at_translate w g2 g3]
  cases hat : at_ D tr t with
  | error e => rfl
  | ok x =>
    have ht := hw.frame_of_exists ((at_ok hw).2 ⟨x, hat⟩)
    show (.ok (x + w t) : R (Coord G)) = .ok x
    rw [hzero t ht, add_zero]

/-- C41. Removing the drift a second time does not move anything. -/
theorem C41_idempotent {D : DynParts G} (hw : Wf D) (hi : D.index = none) {D' : DynParts G}
    (h : removeDrift D = .ok D') :
    ∃ D'', removeDrift D' = .ok D'' ∧ ∀ tr t, at_ D'' tr t = at_ D' tr t := by
  have hD := removeDrift_spec hw (fun t ht => by
    obtain ⟨l, k1, -, k3⟩ := driftSelection_spec hw hi ht
    exact ⟨l, k1, fun tr htr => (k3 tr).1 htr⟩)
  obtain ⟨v, D1, h1, h2, hix, hrad, h3, h4, h5, h6⟩ := hD
  rw [h] at h1
  cases h1
  have hw' := wf_translate hw v h2 h3
  have hl : D'.positions.length = D.positions.length := by
    apply le_antisymm
    · have := h3 D.positions.length
      simpa using this
    · have := h3 D'.positions.length
      simpa using this.symm
  have hsel : ∀ t, driftSelection D' t = driftSelection D t := by
    intro t
    unfold driftSelection selectSpanning
    rw [hix, hi, h2]
  have hD' := removeDrift_spec hw' (fun t ht => by
    obtain ⟨l, k1, -, k3⟩ := driftSelection_spec hw' hix ht
    exact ⟨l, k1, fun tr htr => (k3 tr).1 htr⟩)
  obtain ⟨w, D'', g1, g2, -, -, g3, g4, g5, g6⟩ := hD'
  refine ⟨D'', g1, ?_⟩
  -- the shifts are all the same
  have hstep : ∀ t, t + 1 < D'.positions.length → w (t + 1) = w t := by
    intro t ht
    obtain ⟨l, k1, -, k3⟩ := driftSelection_spec hw' hix ht
    by_cases hlen : l.length < 2
    · exact (g6 t ht l k1).1 hlen
    · have hs'' := (g6 t ht l k1).2 (by omega)
      have hs' := (h6 t (by omega) l (by rw [← hsel]; exact k1)).2 (by omega)
      obtain ⟨x, hx1, hx2⟩ := hs'
      obtain ⟨y, hy1, hy2⟩ := hs''
      have hxy : ∀ tr ∈ l, y tr (t + 1) - y tr t = (x tr (t + 1) - x tr t) + (w (t + 1) - w t) := by
        intro tr htr
        have e0 := (hy1 tr htr).1
        have e1 := (hy1 tr htr).2
        rw [at_translate w g2 g3, (hx1 tr htr).1] at e0
        rw [at_translate w g2 g3, (hx1 tr htr).2] at e1
        have e0 : x tr t + w t = y tr t := by injection e0
        have e1 : x tr (t + 1) + w (t + 1) = y tr (t + 1) := by injection e1
        rw [← e0, ← e1]
        abel
      rw [List.map_congr_left hxy] at hy2
      funext a
      have := congrFun hy2 a
      rw [sum_map_add_const, ← hx2] at this
      simp only [Pi.zero_apply, zero_add, Pi.sub_apply] at this
      have hne : (l.length : G) ≠ 0 := by
        have : l.length ≠ 0 := by omega
        exact_mod_cast this
      rcases mul_eq_zero.1 this.symm with h | h
      · exact absurd h hne
      · exact sub_eq_zero.1 h
  exact shifts_null hw' w g2 g3 g5 hstep

/-- C41. If no two trajectories exist in the same consecutive frames, nothing moves: the drift of a
trajectory that is alone is kept. -/
theorem C41_alone {D : DynParts G} (hw : Wf D) (hi : D.index = none)
    (ha : ∀ t tr tr', Exists D tr t → Exists D tr (t + 1) → Exists D tr' t → Exists D tr' (t + 1) → tr = tr') :
    ∃ D', removeDrift D = .ok D' ∧ ∀ tr t, at_ D' tr t = at_ D tr t := by
  obtain ⟨w, D', g1, g2, -, -, g3, g4, g5, g6⟩ := removeDrift_spec hw (fun t ht => by
    obtain ⟨l, k1, -, k3⟩ := driftSelection_spec hw hi ht
    exact ⟨l, k1, fun tr htr => (k3 tr).1 htr⟩)
  refine ⟨D', g1, shifts_null hw w g2 g3 g5 ?_⟩
  intro t ht
  obtain ⟨l, k1, k2, k3⟩ := driftSelection_spec hw hi ht
  refine (g6 t ht l k1).1 ?_
  match l, k2, k3 with
  | [], _, _ => simp
  | [x], _, _ => simp
  | x :: y :: l, k2, k3 =>
    exfalso
    have h1 := (k3 x).1 (by simp)
    have h2 := (k3 y).1 (by simp)
    have := ha t x y h1.1 h1.2 h2.1 h2.2
    simp only [List.pairwise_cons, List.mem_cons] at k2
    have := k2.1 y (.inl rfl)
    omega

/-- A particle that moves alone. -/
def exOne : DynParts ℚ :=
  ⟨[⟨[![0, 0, 0]], ⟨fun _ => 0, fun _ => 10⟩, 1, none⟩,
    ⟨[![1, 0, 0]], ⟨fun _ => 0, fun _ => 10⟩, 1, none⟩],
   ⟨[⟨0, [0, 0]⟩], [[0], [0]]⟩, 1, none, []⟩

theorem exOne_wf : Wf exOne := by
  refine ⟨by decide, by decide, by decide, by decide, ?_⟩
  intro t p tr
  rw [invert_ok]
  unfold TrajIndex.convert
  rw [bind_ok]
  simp only [getR_ok]
  match tr with
  | 0 =>
    simp only [exOne, List.getElem?_cons_zero, Option.some.injEq, exists_eq_left']
    rw [at_eq (by simp) (by simp [szMod])]
    match t with
    | 0 | 1 | _ + 2 =>
      match p with
      | 0 | _ + 1 => simp
  | tr + 1 =>
    match t with
    | 0 | 1 | _ + 2 =>
      match p with
      | 0 | _ + 1 => simp [exOne]

/-- C41. The mean displacement between two frames is not cancelled when they share one trajectory. -/
theorem C41_single_counterexample :
    ∃ D D' : DynParts ℚ, Wf D ∧ D.index = none ∧ removeDrift D = .ok D' ∧
      (∀ tr, Exists D tr 0 ∧ Exists D tr 1 ↔ tr = 0) ∧ ¬ SumDispl D' [0] 0 1 0 := by
  have hex : ∀ tr t, Exists exOne tr t → tr = 0 := by
    rintro tr t ⟨T, h, -⟩
    match tr with
    | 0 => rfl
    | tr + 1 => simp [exOne] at h
  obtain ⟨D', h1, h2⟩ := C41_alone exOne_wf rfl (by
    intro t tr tr' h1 _ h2 _
    rw [hex _ _ h1, hex _ _ h2])
  refine ⟨exOne, D', exOne_wf, rfl, h1, ?_, ?_⟩
  · intro tr
    constructor
    · exact fun h => hex _ _ h.1
    · rintro rfl
      exact ⟨⟨⟨0, [0, 0]⟩, rfl, by simp, by simp⟩, ⟨⟨0, [0, 0]⟩, rfl, by simp, by simp⟩⟩
  · rintro ⟨x, hx, hs⟩
    obtain ⟨e0, e1⟩ := hx 0 (by simp)
    rw [h2] at e0 e1
    have e0' : at_ exOne 0 0 = .ok ![0, 0, 0] := by decide +kernel
    have e1' : at_ exOne 0 1 = .ok ![1, 0, 0] := by decide +kernel
    rw [e0'] at e0
    rw [e1'] at e1
    injection e0 with e0
    injection e1 with e1
    have := congrFun hs 0
    simp only [List.map_cons, List.map_nil, List.sum_cons, List.sum_nil, ← e0, ← e1] at this
    simp at this

/-- Two particles moving together along `x`, and back. -/
def exTwo : DynParts ℚ :=
  ⟨[⟨[![0, 0, 0], ![0, 5, 0]], ⟨fun _ => 0, fun _ => 10⟩, 1, none⟩,
    ⟨[![1, 0, 0], ![3, 5, 0]], ⟨fun _ => 0, fun _ => 10⟩, 1, none⟩,
    ⟨[![5, 0, 0], ![4, 5, 0]], ⟨fun _ => 0, fun _ => 10⟩, 1, none⟩],
   ⟨[⟨0, [0, 1, 0]⟩, ⟨0, [1, 0, 1]⟩], [[0, 1], [1, 0], [0, 1]]⟩, 1, none, []⟩

theorem exTwo_wf : Wf exTwo := by
  refine ⟨by decide, by decide, by decide, by decide, ?_⟩
  intro t p tr
  rw [invert_ok]
  unfold TrajIndex.convert
  rw [bind_ok]
  simp only [getR_ok]
  match tr with
  | 0 =>
    simp only [exTwo, List.getElem?_cons_zero, Option.some.injEq, exists_eq_left']
    rw [at_eq (by simp) (by simp [szMod])]
    match t with
    | 0 | 1 | 2 | _ + 3 =>
      match p with
      | 0 | 1 | _ + 2 => simp
  | 1 =>
    simp only [exTwo, List.getElem?_cons_zero, List.getElem?_cons_succ, Option.some.injEq, exists_eq_left']
    rw [at_eq (by simp) (by simp [szMod])]
    match t with
    | 0 | 1 | 2 | _ + 3 =>
      match p with
      | 0 | 1 | _ + 2 => simp
  | tr + 2 =>
    match t with
    | 0 | 1 | 2 | _ + 3 =>
      match p with
      | 0 | 1 | _ + 2 => simp [exTwo]

/-- The hypotheses of `C41_removeDrift_partial` with two shared trajectories. -/
example : ∃ D', removeDrift exTwo = .ok D' ∧ SumDispl D' [0, 1] 0 1 0 := by
  obtain ⟨v, D', h1, -, -, -, -, h⟩ := C41_removeDrift_partial exTwo_wf rfl
  refine ⟨D', h1, h 0 (by decide) [0, 1] (by simp) ?_ (by simp)⟩
  intro tr
  match tr with
  | 0 => simp [Exists, exTwo]
  | 1 => simp [Exists, exTwo]
  | tr + 2 => simp [Exists, exTwo]

/-- C41. `getDrift(t0, t1)` is not the drift from `t0` to `t1`: it ignores `t1`. Here the two particles have
moved by 9 in total between the times 0 and 2, and `getDrift(0, 2)` is 2. -/
theorem C41_getDrift_counterexample :
    getDrift exTwo 0 2 = .ok ![2, 0, 0] ∧ SumDispl exTwo [0, 1] 0 2 ![9, 0, 0] := by
  constructor
  · obtain ⟨l, k1, k2, k3⟩ := driftSelection_spec exTwo_wf rfl (t := 0) (by decide)
    have : l = [0, 1] := by
      apply sorted_ext k2 (by simp)
      intro tr
      rw [k3]
      match tr with
      | 0 => simp [Exists, exTwo]
      | 1 => simp [Exists, exTwo]
      | tr + 2 => simp [Exists, exTwo]
    subst this
    unfold getDrift
    rw [k1, ok_bind, getDriftOf_eq (f := fun tr t => if t = 0 then (if tr = 0 then ![0, 0, 0] else ![0, 5, 0])
      else (if tr = 0 then ![3, 5, 0] else ![1, 0, 0])) (by decide +kernel)]
    congr 1
    funext a
    fin_cases a <;> norm_num
  · refine ⟨fun tr t => if t = 0 then (if tr = 0 then ![0, 0, 0] else ![0, 5, 0]) else
      (if tr = 0 then ![5, 0, 0] else ![4, 5, 0]), ?_, ?_⟩
    · decide +kernel
    · decide +kernel

end Dyn
end Colloids
