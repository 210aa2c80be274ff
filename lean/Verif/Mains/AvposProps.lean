import Verif.Mains.AvposModel
import Verif.DynField.Props
import Verif.Dyn.DriftProps
import Mathlib.Algebra.BigOperators.Field
import Mathlib.Algebra.Order.BigOperators.Group.Finset
import Mathlib.Algebra.BigOperators.Pi

/-! # C132: the program `avpos` -/

namespace Colloids

namespace Mains

open Dyn

variable {G : Type} [Field G] [LinearOrder G]

omit [Field G] [LinearOrder G] in
/-- What the averaging needs is in a well formed film. -/
theorem sound_of_wf {D : DynParts G} (h : Wf D) :
    DynField.Sound D.trajectories (D.positions.map (·.pos)) := by
  have hlen : D.positions.length = D.trajectories.inverse.length := by
    have := congrArg List.length h.frames
    simpa using this.symm
  refine ⟨by simpa using hlen, ?_, ?_, ?_, ?_⟩
  · intro t ht
    simp only [List.length_map] at ht
    obtain ⟨row, hr, hl⟩ := h.row (t := t) (ps := D.positions[t]) (by simp [ht])
    simp [DynField.npos, hr, hl]
  · intro tr T hT
    have hm := List.mem_of_getElem? hT
    exact ⟨h.nonempty T hm, h.fits' hm⟩
  · intro t p ht hp
    unfold DynField.npos at hp
    unfold DynField.trOf
    rw [List.getElem?_eq_getElem ht, Option.getD_some] at hp ⊢
    rw [List.getElem?_eq_getElem hp, Option.getD_some]
    have := (h.inverse t p (D.trajectories.inverse[t][p])).1 (invert_ok.2 ⟨D.trajectories.inverse[t], by simp [ht], by simp [hp]⟩)
    obtain ⟨T, h1, -⟩ := (convert_ok h).1 this
    exact (List.getElem?_eq_some_iff.1 h1).1
  · intro tr u q hu hq
    obtain ⟨row, h1, h2⟩ := invert_ok.1 ((h.inverse u q tr).2 hq)
    have := (List.getElem?_eq_some_iff.1 h2).1
    simpa [DynField.npos, h1] using this

variable [IsStrictOrderedRing G]

theorem coordOps_null (v : Coord G) : coordOps.isNull v = true ↔ v = 0 := by
  unfold coordOps
  simp only [decide_eq_true_eq, add_eq_left]
  constructor
  · intro h
    have h0 : v 0 * v 0 ≤ 0 := by rw [← h]; exact le_max_of_le_left (le_max_left _ _)
    have h1 : v 1 * v 1 ≤ 0 := by rw [← h]; exact le_max_of_le_left (le_max_right _ _)
    have h2 : v 2 * v 2 ≤ 0 := by rw [← h]; exact le_max_right _ _
    have e : ∀ x : G, x * x ≤ 0 → x = 0 := fun x hx => mul_self_eq_zero.1 (le_antisymm hx (mul_self_nonneg x))
    funext a
    match a with
    | 0 => exact e _ h0
    | 1 => exact e _ h1
    | 2 => exact e _ h2
  · rintro rfl
    simp

omit [IsStrictOrderedRing G] in
open Classical in
/-- Sum and number of the values that are kept. -/
theorem binned_sum (X : Nat → Coord G) (c : Nat → Prop) : ∀ n : Nat,
    let l := (List.range n).filterMap (fun u => if c u ∧ X u ≠ 0 then some (X u) else none)
    l.foldl (· + ·) 0 = ∑ u ∈ (Finset.range n).filter c, X u ∧
    l.length = ((Finset.range n).filter (fun u => c u ∧ X u ≠ 0)).card := by
  intro n
  induction n with
  | zero => simp
  | succ n ih =>
    dsimp only at ih ⊢
    rw [List.range_succ, List.filterMap_append, List.foldl_append, List.length_append, ih.1, ih.2,
      Finset.range_add_one, Finset.filter_insert, Finset.filter_insert]
    by_cases h1 : c n
    · by_cases h2 : X n = 0
      · rw [if_pos h1, if_neg (fun h => h.2 h2), Finset.sum_insert (by simp), h2]
        simp [h2]
      · rw [if_pos h1, if_pos ⟨h1, h2⟩, Finset.sum_insert (by simp), Finset.card_insert_of_notMem (by simp)]
        simp [h1, h2, add_comm]
    · rw [if_neg h1, if_neg (fun h => h1 h.1)]
      simp [h1]

open Classical in
/-- The times of the window around `t` when the trajectory exists. -/
noncomputable def windowTimes (D : DynParts G) (tau tr t : Nat) : Finset Nat :=
  (Finset.Icc (t - tau / 2) (t + tau / 2)).filter (Exists D tr)

open Classical in
omit [IsStrictOrderedRing G] in
theorem windowTimes_eq {D : DynParts G} (h : Wf D) (tau tr t : Nat) :
    windowTimes D tau tr t = (Finset.range D.positions.length).filter
      (fun u => (t ≤ u + tau / 2 ∧ u ≤ t + tau / 2) ∧ Exists D tr u) := by
  ext u
  simp only [windowTimes, Finset.mem_filter, Finset.mem_Icc, Finset.mem_range]
  constructor
  · rintro ⟨h1, h2⟩
    exact ⟨h.frame_of_exists h2, by omega, h2⟩
  · rintro ⟨-, h1, h2⟩
    exact ⟨by omega, h2⟩

open Classical in
theorem binned_film {D : DynParts G} (h : Wf D) (tau tr t : Nat) (X : Nat → Coord G)
    (hX : ∀ u, Exists D tr u → at_ D tr u = .ok (X u)) :
    DynField.binned coordOps D.trajectories (D.positions.map (·.pos)) (tau / 2) D.positions.length t tr =
      (List.range D.positions.length).filterMap (fun u =>
        if ((t ≤ u + tau / 2 ∧ u ≤ t + tau / 2) ∧ Exists D tr u) ∧ X u ≠ 0 then some (X u) else none) := by
  unfold DynField.binned
  apply List.filterMap_congr
  intro u hu
  by_cases h1 : t ≤ u + tau / 2 ∧ u ≤ t + tau / 2
  · rw [if_pos h1]
    unfold DynField.sample
    by_cases h2 : Exists D tr u
    · obtain ⟨q, hq⟩ := (exists_iff_convert h).1 h2
      obtain ⟨ps, x, e1, e2, e3⟩ := at_of_convert h hq
      have e4 := hX u h2
      rw [e3] at e4
      injection e4 with e4
      subst e4
      rw [hq]
      simp only [List.getElem?_map, e1, Option.map_some, Option.bind_some, e2, Option.filter_some]
      by_cases h3 : X u = 0
      · rw [(coordOps_null _).2 h3]
        simp [h3]
      · have : coordOps.isNull (X u) = false := by
          rw [← Bool.not_eq_true]; exact fun hh => h3 ((coordOps_null _).1 hh)
        rw [this]
        simp [h1, h2, h3]
    · rw [if_neg (fun hh => h2 hh.1.2)]
      cases hc : D.trajectories.convert u tr with
      | ok q => exact absurd ((exists_iff_convert h).2 ⟨q, hc⟩) h2
      | error e => rfl
  · rw [if_neg h1, if_neg (fun hh => h1 hh.1.1)]

/-- What is written at place `p` of frame `t`. -/
def Written (out : List (List (Coord G))) (t p : Nat) (x : Coord G) : Prop :=
  ∃ row, out[t]? = some row ∧ row[p]? = some x

open Classical in
/-- Everything that is written. -/
theorem avpos_spec {D D' : DynParts G} (h : Wf D) (hd : removeDrift D = .ok D') (h' : Wf D')
    (tau : Nat) : ∃ out, avpos D tau = .ok out ∧ out.length = D'.positions.length ∧
      (∀ (t : Nat) ps, D'.positions[t]? = some ps → ∃ row, out[t]? = some row ∧ row.length = ps.pos.length) ∧
      ∀ (tr t p : Nat) (X : Nat → Coord G), D'.trajectories.convert t tr = .ok p →
        (∀ u, Exists D' tr u → at_ D' tr u = .ok (X u)) →
        Written out t p (if 0 < tau / 2 then
          (if tau / 2 < D'.positions.length then fun a => (∑ u ∈ windowTimes D' tau tr t, X u) a /
            ((max 1 ((windowTimes D' tau tr t).filter (fun u => X u ≠ 0)).card : Nat) : G)
          else ∑ u ∈ windowTimes D' tau tr t, X u)
          else X t) := by
  have hs := sound_of_wf h'
  have hlen : D'.positions.length = D'.trajectories.inverse.length := by
    have := hs.frameCount; simpa using this
  have hl2 : (D'.positions.map (·.pos)).length = D'.positions.length := by simp
  unfold avpos
  rw [hd, ok_bind]
  have finish : ∀ (f : DynField (Coord G)), (∀ t (ht : t < D'.positions.length), ∃ row, f.values[t]? = some row ∧
      row.length = D'.positions[t].pos.length) →
      (List.range D'.positions.length).mapM (avposFrame D' f) =
        .ok ((List.range D'.positions.length).map (fun t => f.values[t]?.getD [])) := by
    intro f hf
    apply TreeIndex.mapM_ok_of
    intro t ht
    have ht := List.mem_range.1 ht
    obtain ⟨row, h1, h2⟩ := hf t ht
    unfold avposFrame DynField.view DynField.copyInto
    rw [getR_ok.2 h1, ok_bind, getR_of_lt ht, ok_bind, if_pos (by omega), h1]
    simp [h2]
  by_cases hh : tau / 2 = 0
  · obtain ⟨f, h1, -, -, h4, h5, -⟩ := DynField.copy_all (ops := coordOps) hs (averaging := tau) hh
      _ (le_refl _)
    rw [List.take_length] at h1
    rw [DynField.pushAll, h1, ok_bind]
    have hv : ∀ t (ht : t < D'.positions.length), f.values[t]? = some D'.positions[t].pos := by
      intro t ht
      rw [h5 t (by omega)]
      simp [ht]
    rw [finish f (fun t ht => ⟨_, hv t ht, rfl⟩)]
    refine ⟨_, rfl, by simp, ?_, ?_⟩
    · intro t ps hps
      obtain ⟨ht, rfl⟩ := List.getElem?_eq_some_iff.1 hps
      exact ⟨_, by simp [ht, hv t ht], rfl⟩
    · intro tr t p X hp hX
      obtain ⟨ps, x, e1, e2, e3⟩ := at_of_convert h' hp
      have he := (exists_iff_convert h').2 ⟨p, hp⟩
      have ht := h'.frame_of_exists he
      rw [if_neg (by omega)]
      have := hX t he
      rw [e3] at this
      injection this with this
      refine ⟨D'.positions[t].pos, by simp [ht, hv t ht], ?_⟩
      rw [← this, ← e2]
      rw [List.getElem?_eq_getElem ht] at e1
      injection e1 with e1
      rw [e1]
  · obtain ⟨f, h1, h2⟩ := DynField.inv_all (ops := coordOps) hs (averaging := tau) (by omega) _ (le_refl _)
    rw [List.take_length] at h1
    rw [DynField.pushAll, h1, ok_bind]
    have hv : ∀ t (ht : t < D'.positions.length), f.values[t]? = some (tab (DynField.npos D'.trajectories t)
        (fun p => if tau / 2 < D'.positions.length then
          DynField.mean coordOps (DynField.binned coordOps D'.trajectories (D'.positions.map (·.pos)) (tau / 2)
            D'.positions.length t (DynField.trOf D'.trajectories t p))
        else DynField.sum (DynField.binned coordOps D'.trajectories (D'.positions.map (·.pos)) (tau / 2)
            D'.positions.length t (DynField.trOf D'.trajectories t p)))) := by
      intro t ht
      have := getR_tab (f := fun t => tab (DynField.npos D'.trajectories t) (fun p =>
        if t + tau / 2 < (D'.positions.map (·.pos)).length ∨ ((D'.positions.map (·.pos)).length = D'.trajectories.inverse.length
          ∧ tau / 2 < (D'.positions.map (·.pos)).length) then
          DynField.mean coordOps (DynField.binned coordOps D'.trajectories (D'.positions.map (·.pos)) (tau / 2)
            (D'.positions.map (·.pos)).length t (DynField.trOf D'.trajectories t p))
        else DynField.sum (DynField.binned coordOps D'.trajectories (D'.positions.map (·.pos)) (tau / 2)
            (D'.positions.map (·.pos)).length t (DynField.trOf D'.trajectories t p)))) (hlen ▸ ht)
      rw [h2.vals]
      rw [getR_ok] at this
      refine this.trans (congrArg some ?_)
      apply tab_congr
      intro p _
      simp only [hl2]
      by_cases hc : tau / 2 < D'.positions.length
      · rw [if_pos (Or.inr ⟨hlen, hc⟩), if_pos hc]
      · rw [if_neg (by omega), if_neg hc]
    have hsz : ∀ t (ht : t < D'.positions.length), DynField.npos D'.trajectories t = D'.positions[t].pos.length := by
      intro t ht
      have := hs.sizes t (by omega)
      simpa using this.symm
    rw [finish f (fun t ht => ⟨_, hv t ht, by rw [tab_length, hsz t ht]⟩)]
    refine ⟨_, rfl, by simp, ?_, ?_⟩
    · intro t ps hps
      obtain ⟨ht, rfl⟩ := List.getElem?_eq_some_iff.1 hps
      exact ⟨_, by rw [List.getElem?_map, List.getElem?_range ht, Option.map_some, hv t ht, Option.getD_some],
        by rw [tab_length, hsz t ht]⟩
    · intro tr t p X hp hX
      have he := (exists_iff_convert h').2 ⟨p, hp⟩
      have ht := h'.frame_of_exists he
      obtain ⟨row, e1, e2⟩ := invert_ok.1 ((h'.inverse t p tr).2 hp)
      have hpl : p < DynField.npos D'.trajectories t := by
        have := (List.getElem?_eq_some_iff.1 e2).1
        simpa [DynField.npos, e1] using this
      have htr : DynField.trOf D'.trajectories t p = tr := by simp [DynField.trOf, e1, e2]
      refine ⟨_, by rw [List.getElem?_map, List.getElem?_range ht, Option.map_some, hv t ht, Option.getD_some], ?_⟩
      have := getR_tab (f := fun p => if tau / 2 < D'.positions.length then
          DynField.mean coordOps (DynField.binned coordOps D'.trajectories (D'.positions.map (·.pos)) (tau / 2)
            D'.positions.length t (DynField.trOf D'.trajectories t p))
        else DynField.sum (DynField.binned coordOps D'.trajectories (D'.positions.map (·.pos)) (tau / 2)
            D'.positions.length t (DynField.trOf D'.trajectories t p))) hpl
      rw [getR_ok] at this
      have h0 : 0 < tau / 2 := by omega
      rw [this, htr, if_pos h0]
      obtain ⟨b1, b2⟩ := binned_sum X (fun u => (t ≤ u + tau / 2 ∧ u ≤ t + tau / 2) ∧ Exists D' tr u)
        D'.positions.length
      have c1 : (DynField.binned coordOps D'.trajectories (D'.positions.map (·.pos)) (tau / 2) D'.positions.length t
          tr).foldl (· + ·) 0 = ∑ u ∈ windowTimes D' tau tr t, X u := by
        rw [binned_film h' tau tr t X hX, windowTimes_eq h']
        convert b1
      have c2 : (DynField.binned coordOps D'.trajectories (D'.positions.map (·.pos)) (tau / 2) D'.positions.length t
          tr).length = ((windowTimes D' tau tr t).filter (fun u => X u ≠ 0)).card := by
        rw [binned_film h' tau tr t X hX, windowTimes_eq h', Finset.filter_filter]
        convert b2
      congr 1
      by_cases hc : tau / 2 < D'.positions.length
      · rw [if_pos hc, if_pos hc]
        unfold DynField.mean DynField.sum
        rw [c1, c2]
        rfl
      · rw [if_neg hc, if_neg hc]
        unfold DynField.sum
        rw [c1]

omit [IsStrictOrderedRing G] in
theorem mem_windowTimes_self {D : DynParts G} (h : Wf D) {tau tr t p : Nat}
    (hp : D.trajectories.convert t tr = .ok p) : t ∈ windowTimes D tau tr t := by
  simp only [windowTimes, Finset.mem_filter, Finset.mem_Icc]
  exact ⟨by omega, (exists_iff_convert h).2 ⟨p, hp⟩⟩

omit [IsStrictOrderedRing G] in
theorem windowTimes_zero {D : DynParts G} (h : Wf D) {tau tr t p : Nat} (h0 : tau / 2 = 0)
    (hp : D.trajectories.convert t tr = .ok p) : windowTimes D tau tr t = {t} := by
  ext u
  simp only [windowTimes, Finset.mem_filter, Finset.mem_Icc, Finset.mem_singleton]
  constructor
  · rintro ⟨h1, -⟩; omega
  · rintro rfl
    exact ⟨by omega, (exists_iff_convert h).2 ⟨p, hp⟩⟩

/-- The film without its drift is still well formed. -/
theorem drift_wf {D : DynParts G} (hw : Wf D) (hi : D.index = none) : ∃ D', removeDrift D = .ok D' ∧ Wf D' ∧
    D'.trajectories = D.trajectories ∧ D'.positions.length = D.positions.length := by
  obtain ⟨v, D', h1, h2, -, -, h3, -, -, -⟩ := removeDrift_spec hw (fun t ht => by
    obtain ⟨l, k1, -, k3⟩ := driftSelection_spec hw hi ht
    exact ⟨l, k1, fun tr htr => (k3 tr).1 htr⟩)
  refine ⟨D', h1, wf_translate hw v h2 h3, h2, ?_⟩
  apply le_antisymm
  · have := h3 D.positions.length
    simpa using this
  · have := h3 D'.positions.length
    simpa using this.symm

/-- **C132.** When the film is longer than half the interval, what is written for a particle is the mean of its positions,
drift removed, over the frames of the window in which it is tracked, provided that it never passes at the origin. The
window has `2 * (tau / 2) + 1` frames, less at the ends of the film. -/
theorem C132_mean_partial {D : DynParts G} (hw : Wf D) (hi : D.index = none) (tau : Nat)
    (hlong : tau / 2 < D.positions.length) :
    ∃ D' out, removeDrift D = .ok D' ∧ avpos D tau = .ok out ∧ out.length = D.positions.length ∧
      ∀ (tr t p : Nat) (X : Nat → Coord G), D.trajectories.convert t tr = .ok p →
        (∀ u, Exists D' tr u → at_ D' tr u = .ok (X u)) →
        (∀ u ∈ windowTimes D' tau tr t, X u ≠ 0) →
        ∃ x, Written out t p x ∧
          ∀ a, x a = (∑ u ∈ windowTimes D' tau tr t, X u a) / ((windowTimes D' tau tr t).card : G) := by
  classical
  obtain ⟨D', h1, h2, h3, h4⟩ := drift_wf hw hi
  obtain ⟨out, g1, g2, -, g4⟩ := avpos_spec hw h1 h2 tau
  refine ⟨D', out, h1, g1, by omega, ?_⟩
  intro tr t p X hp hX hn
  rw [← h3] at hp
  have := g4 tr t p X hp hX
  refine ⟨_, this, ?_⟩
  intro a
  have hm := mem_windowTimes_self (tau := tau) h2 hp
  by_cases h0 : 0 < tau / 2
  · have hc : 1 ≤ (windowTimes D' tau tr t).card := Finset.card_pos.2 ⟨t, hm⟩
    rw [if_pos h0, if_pos (by omega), Finset.filter_true_of_mem hn, max_eq_right hc, Finset.sum_apply]
  · rw [if_neg h0, windowTimes_zero h2 (by omega) hp]
    simp

/-- **C132.** Whatever the film, longer than half the interval, the position that is written for a particle lies in every
box that contains its positions, drift removed, over the window: averaging never sends a particle out of where it has
been, even if it passed at the origin. -/
theorem C132_box {D : DynParts G} (hw : Wf D) (hi : D.index = none) (tau : Nat)
    (hlong : tau / 2 < D.positions.length) :
    ∃ D' out, removeDrift D = .ok D' ∧ avpos D tau = .ok out ∧
      ∀ (tr t p : Nat) (X : Nat → Coord G), D.trajectories.convert t tr = .ok p →
        (∀ u, Exists D' tr u → at_ D' tr u = .ok (X u)) →
        ∃ x, Written out t p x ∧ ∀ (a : Fin 3) (lo hi : G),
          (∀ u ∈ windowTimes D' tau tr t, lo ≤ X u a ∧ X u a ≤ hi) → lo ≤ x a ∧ x a ≤ hi := by
  classical
  obtain ⟨D', h1, h2, h3, h4⟩ := drift_wf hw hi
  obtain ⟨out, g1, g2, -, g4⟩ := avpos_spec hw h1 h2 tau
  refine ⟨D', out, h1, g1, ?_⟩
  intro tr t p X hp hX
  rw [← h3] at hp
  have := g4 tr t p X hp hX
  refine ⟨_, this, ?_⟩
  intro a lo hi hb
  have hm := mem_windowTimes_self (tau := tau) h2 hp
  by_cases h0 : 0 < tau / 2
  · rw [if_pos h0, if_pos (by omega), Finset.sum_apply]
    have hs : ∑ u ∈ windowTimes D' tau tr t, X u a =
        ∑ u ∈ (windowTimes D' tau tr t).filter (fun u => X u ≠ 0), X u a := by
      symm
      apply Finset.sum_subset (Finset.filter_subset _ _)
      intro u hu hu'
      have : X u = 0 := by
        by_contra hne
        exact hu' (Finset.mem_filter.2 ⟨hu, hne⟩)
      rw [this]; rfl
    rw [hs]
    generalize hF : (windowTimes D' tau tr t).filter (fun u => X u ≠ 0) = F
    have hFb : ∀ u ∈ F, lo ≤ X u a ∧ X u a ≤ hi := by
      intro u hu
      rw [← hF] at hu
      exact hb u (Finset.mem_filter.1 hu).1
    rcases F.eq_empty_or_nonempty with rfl | hne
    · have : X t = 0 := by
        by_contra hne
        have : t ∈ (windowTimes D' tau tr t).filter (fun u => X u ≠ 0) := Finset.mem_filter.2 ⟨hm, hne⟩
        rw [hF] at this
        simp at this
      have hbt := hb t hm
      rw [this] at hbt
      simpa using hbt
    · have hc : 1 ≤ F.card := Finset.card_pos.2 hne
      have hc' : (0 : G) < (F.card : G) := by exact_mod_cast hc
      rw [max_eq_right hc, le_div_iff₀ hc', div_le_iff₀ hc']
      have k1 := Finset.card_nsmul_le_sum F (fun u => X u a) lo (fun u hu => (hFb u hu).1)
      have k2 := Finset.sum_le_card_nsmul F (fun u => X u a) hi (fun u hu => (hFb u hu).2)
      rw [nsmul_eq_mul] at k1 k2
      exact ⟨by linarith, by linarith⟩
  · rw [if_neg h0]
    exact hb t hm

/-- **C132.** Each frame keeps its number of positions, whatever the interval. -/
theorem C132_sizes {D : DynParts G} (hw : Wf D) (hi : D.index = none) (tau : Nat) :
    ∃ out, avpos D tau = .ok out ∧ out.map List.length = D.positions.map (fun ps => ps.pos.length) := by
  obtain ⟨D', h1, h2, h3, h4⟩ := drift_wf hw hi
  obtain ⟨out, g1, g2, g3, -⟩ := avpos_spec hw h1 h2 tau
  refine ⟨out, g1, ?_⟩
  have e : D'.positions.map (fun ps => ps.pos.length) = D.positions.map (fun ps => ps.pos.length) := by
    rw [← h2.frames, ← hw.frames, h3]
  rw [← e]
  apply List.ext_getElem?
  intro t
  rw [List.getElem?_map, List.getElem?_map]
  cases hp : D'.positions[t]? with
  | none =>
    have : out[t]? = none := by
      rw [List.getElem?_eq_none_iff] at hp ⊢; omega
    rw [this]; rfl
  | some ps =>
    obtain ⟨row, r1, r2⟩ := g3 t ps hp
    rw [r1, Option.map_some, Option.map_some, r2]

/-- **C132 fails for films not longer than half the interval**: the sum of the positions is written, not their mean. -/
theorem C132_short_counterexample {D : DynParts G} (hw : Wf D) (hi : D.index = none) (tau : Nat)
    (hlen : 0 < D.positions.length) (hshort : D.positions.length ≤ tau / 2) :
    ∃ D' out, removeDrift D = .ok D' ∧ avpos D tau = .ok out ∧
      ∀ (tr t p : Nat) (X : Nat → Coord G), D.trajectories.convert t tr = .ok p →
        (∀ u, Exists D' tr u → at_ D' tr u = .ok (X u)) →
        Written out t p (∑ u ∈ windowTimes D' tau tr t, X u) := by
  classical
  obtain ⟨D', h1, h2, h3, h4⟩ := drift_wf hw hi
  obtain ⟨out, g1, g2, -, g4⟩ := avpos_spec hw h1 h2 tau
  refine ⟨D', out, h1, g1, ?_⟩
  intro tr t p X hp hX
  rw [← h3] at hp
  have := g4 tr t p X hp hX
  rwa [if_pos (by omega), if_neg (by omega)] at this

theorem exOne_only (tr t : Nat) (h : Exists exOne tr t) : tr = 0 ∧ t < 2 := by
  obtain ⟨T, h1, h2, h3⟩ := h
  match tr with
  | 0 =>
    simp only [exOne, List.getElem?_cons_zero, Option.some.injEq] at h1
    subst h1
    exact ⟨rfl, by simpa using h3⟩
  | tr + 1 => simp [exOne] at h1

/-- **C132 fails for a particle that passes at the origin**, even without drift: this position is left out of the mean. A
particle at `0` then `1`, averaged over both frames, is written at `1` and not at `1/2`. -/
theorem C132_origin_counterexample : ∃ D D' : DynParts ℚ, ∃ out, Wf D ∧ D.index = none ∧ 2 / 2 < D.positions.length ∧
    removeDrift D = .ok D' ∧ at_ D' 0 0 = .ok ![0, 0, 0] ∧ at_ D' 0 1 = .ok ![1, 0, 0] ∧
    windowTimes D' 2 0 0 = {0, 1} ∧ avpos D 2 = .ok out ∧ Written out 0 0 ![1, 0, 0] := by
  classical
  obtain ⟨D', h1, h2⟩ := C41_alone exOne_wf rfl (by
    intro t tr tr' h1 _ h2 _
    rw [(exOne_only _ _ h1).1, (exOne_only _ _ h2).1])
  obtain ⟨D'', h1', hw', h3, h4⟩ := drift_wf exOne_wf rfl
  obtain rfl : D' = D'' := by
    rw [h1] at h1'
    injection h1'
  have e0 : at_ exOne 0 0 = .ok ![0, 0, 0] := by decide +kernel
  have e1 : at_ exOne 0 1 = .ok ![1, 0, 0] := by decide +kernel
  have hex : ∀ tr t, Exists D' tr t ↔ Exists exOne tr t := by
    intro tr t
    rw [at_ok hw', at_ok exOne_wf, h2]
  have hx0 : Exists D' 0 0 := by rw [hex, at_ok exOne_wf]; exact ⟨_, e0⟩
  have hx1 : Exists D' 0 1 := by rw [hex, at_ok exOne_wf]; exact ⟨_, e1⟩
  have hwin : windowTimes D' 2 0 0 = {0, 1} := by
    ext u
    simp only [windowTimes, Finset.mem_filter, Finset.mem_Icc, Finset.mem_insert, Finset.mem_singleton]
    constructor
    · rintro ⟨h, -⟩; omega
    · rintro (rfl | rfl)
      · exact ⟨by omega, hx0⟩
      · exact ⟨by omega, hx1⟩
  obtain ⟨out, g1, g2, -, g4⟩ := avpos_spec exOne_wf h1 hw' 2
  refine ⟨exOne, D', out, exOne_wf, rfl, by decide, h1, by rw [h2, e0], by rw [h2, e1], hwin, g1, ?_⟩
  have := g4 0 0 0 (fun u => if u = 0 then ![0, 0, 0] else ![1, 0, 0]) (by rw [h3]; decide +kernel) (by
    intro u hu
    obtain ⟨-, hu2⟩ := exOne_only _ _ ((hex _ _).1 hu)
    rw [h2]
    match u with
    | 0 => exact e0
    | 1 => exact e1)
  rw [if_pos (by decide), if_pos (by rw [h4]; decide), hwin] at this
  have hz : (![0, 0, 0] : Coord ℚ) = 0 := by decide +kernel
  have hn : (![1, 0, 0] : Coord ℚ) ≠ 0 := by decide +kernel
  convert this using 1
  have hf : ({0, 1} : Finset Nat).filter (fun u => (if u = 0 then ![0, 0, 0] else ![1, 0, 0] : Coord ℚ) ≠ 0) = {1} := by
    ext u
    simp only [Finset.mem_filter, Finset.mem_insert, Finset.mem_singleton]
    constructor
    · rintro ⟨rfl | rfl, h⟩
      · exact absurd hz h
      · rfl
    · rintro rfl
      exact ⟨Or.inr rfl, hn⟩
  rw [hf]
  funext a
  simp [hz]

example : Wf exTwo ∧ exTwo.index = none ∧ 3 / 2 < exTwo.positions.length ∧ exTwo.trajectories.convert 1 1 = .ok 0 :=
  ⟨exTwo_wf, rfl, by decide, by decide +kernel⟩

example : Wf exTwo ∧ 0 < exTwo.positions.length ∧ exTwo.positions.length ≤ 6 / 2 := ⟨exTwo_wf, by decide, by decide⟩

end Mains

end Colloids
