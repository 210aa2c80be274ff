import Verif.Dyn.DriftProps
import Verif.Particles.Props

/-! # C44: lost neighbours, C61: velocities -/

namespace Colloids
namespace Dyn

variable {G : Type} [Field G] [LinearOrder G]

/-! ## C44 -/

/-- The neighbour list of frame `t` has a row per position, and its rows contain positions of the frame. -/
def NgbWf (D : DynParts G) (t : Nat) : Prop :=
  ∃ N ps, D.ngbs[t]? = some N ∧ D.positions[t]? = some ps ∧ N.length = ps.pos.length ∧
    ∀ row ∈ N, ∀ q ∈ row, q < ps.pos.length

/-- At time `t` the position of trajectory `tr'` is in the neighbour list of the position of `tr`. -/
def Bonded (D : DynParts G) (tr tr' t : Nat) : Prop :=
  ∃ N p row q, D.ngbs[t]? = some N ∧ D.trajectories.convert t tr = .ok p ∧ N[p]? = some row ∧ q ∈ row ∧
    D.trajectories.convert t tr' = .ok q

theorem ngbTrajs_ok {D : DynParts G} (hw : Wf D) {tr t : Nat} (hn : NgbWf D t) (he : Exists D tr t) :
    ∃ l, ngbTrajs D tr t = .ok l ∧ l.Pairwise (· < ·) ∧ ∀ tr', tr' ∈ l ↔ Bonded D tr tr' t := by
  obtain ⟨N, ps, hN, hps, hl, hq⟩ := hn
  obtain ⟨p, hp⟩ := (exists_iff_convert hw).1 he
  obtain ⟨ps', x, hps', hx, -⟩ := at_of_convert hw hp
  rw [hps] at hps'
  cases hps'
  have hlt : p < N.length := by rw [hl]; exact (List.getElem?_eq_some_iff.1 hx).1
  obtain ⟨inv, hinv, hil⟩ := hw.row hps
  have hrow : ∀ q ∈ N[p], D.trajectories.invert t q = .ok (inv[q]?.getD 0) := by
    intro q hqm
    have h1 := hq _ (List.getElem_mem hlt) q hqm
    rw [invert_ok]
    refine ⟨inv, hinv, ?_⟩
    rw [List.getElem?_eq_getElem (by omega)]
    rfl
  refine ⟨sortUnique (N[p].map (fun q => inv[q]?.getD 0)), ?_, sortUnique_sorted _, ?_⟩
  · unfold ngbTrajs
    have hp' := hp
    unfold TrajIndex.convert at hp'
    rw [bind_ok] at hp'
    obtain ⟨T, hT, hT'⟩ := hp'
    rw [getR_ok.2 hN, ok_bind, hT, ok_bind, hT', ok_bind, getR_of_lt hlt, ok_bind,
      TreeIndex.mapM_ok_of _ _ _ hrow, ok_bind]
    rfl
  · intro tr'
    rw [mem_sortUnique, List.mem_map]
    constructor
    · rintro ⟨q, hqm, rfl⟩
      exact ⟨N, p, N[p], q, hN, hp, by simp, hqm, (hw.inverse t q _).1 (hrow q hqm)⟩
    · rintro ⟨N', p', row, q, h1, h2, h3, h4, h5⟩
      rw [hN] at h1; cases h1
      rw [hp] at h2; cases h2
      rw [List.getElem?_eq_getElem hlt] at h3; cases h3
      refine ⟨q, h4, ?_⟩
      have := hrow q h4
      rw [(hw.inverse t q tr').2 h5] at this
      injection this with this
      exact this.symm

/-- C44. `getLostNgbs(tr, t0, t1)` returns, in increasing order and once each, exactly the trajectories that
are neighbours of `tr` at `t0` and not at `t1`. -/
theorem C44_lost {D : DynParts G} (hw : Wf D) {tr t0 t1 : Nat} (h0 : NgbWf D t0) (h1 : NgbWf D t1)
    (e0 : Exists D tr t0) (e1 : Exists D tr t1) :
    ∃ l, getLostNgbs D tr t0 t1 = .ok l ∧ l.Pairwise (· < ·) ∧
      ∀ tr', tr' ∈ l ↔ Bonded D tr tr' t0 ∧ ¬ Bonded D tr tr' t1 := by
  obtain ⟨a, ha, ha1, ha2⟩ := ngbTrajs_ok hw h0 e0
  obtain ⟨b, hb, hb1, hb2⟩ := ngbTrajs_ok hw h1 e1
  by_cases h : t0 = t1
  · subst h
    refine ⟨[], by unfold getLostNgbs; rw [if_pos rfl]; rfl, by simp, ?_⟩
    intro tr'
    constructor
    · simp
    · rintro ⟨h1, h2⟩; exact absurd h1 h2
  · refine ⟨setDifference a b, ?_, ha1.sublist (setDifferenceAux_sublist _ _ _), ?_⟩
    · unfold getLostNgbs
      rw [if_neg h, ha, ok_bind, hb, ok_bind]
      rfl
    · intro tr'
      rw [setDifference, mem_setDifferenceAux _ _ _ (le_refl _) ha1 hb1, ha2, hb2]

/-- First and last times of the centered scheme: `half` before and after `t`, within the trajectory. -/
structure IsCentered (T : Traj) (t half first last : Nat) : Prop where
  first_le : first ≤ t
  le_last : t ≤ last
  first_ge : T.start ≤ first
  last_lt : last < T.start + T.steps.length
  first_eq : first + half = t ∨ (first = T.start ∧ t ≤ first + half)
  last_eq : last = t + half ∨ (last + 1 = T.start + T.steps.length ∧ last ≤ t + half)

omit [Field G] [LinearOrder G] in
theorem centered_spec {D : DynParts G} (hw : Wf D) {T : Traj} (hT : T ∈ D.trajectories.trajs) {t : Nat}
    (h1 : T.start ≤ t) (h2 : t < T.start + T.steps.length) (half : Nat) :
    IsCentered T t half (firstTime T t half) (stopTime T t half) := by
  have hb := hw.fits' hT
  have hlast : T.lastTime = T.start + T.steps.length - 1 := by
    apply lastTime_eq (hw.nonempty T hT)
    exact hb
  have hf : firstTime T t half = max (t - half) T.start := by
    unfold firstTime
    omega
  have hs : stopTime T t half = min (t + half) (T.start + T.steps.length - 1) := by
    unfold stopTime
    rw [hlast]
  rw [hf, hs]
  constructor <;> omega

/-- C44. `getNbLostNgbs(t, half)` gives, for each position of the frame, the number of trajectories that
are neighbours of its trajectory at the beginning of the centered interval and not at its end. -/
theorem C44_count {D : DynParts G} (hw : Wf D) {t : Nat} (ht : t < D.positions.length) (half : Nat)
    (hn : ∀ u < D.positions.length, NgbWf D u) :
    ∃ l, getNbLostNgbs D t half = .ok l ∧ l.length = (D.positions[t]).pos.length ∧
      ∀ p tr T, D.trajectories.convert t tr = .ok p → D.trajectories.trajs[tr]? = some T →
        ∃ (first last : Nat) (lost : List Nat), IsCentered T t half first last ∧ lost.Pairwise (· < ·) ∧
          (∀ tr', tr' ∈ lost ↔ Bonded D tr tr' first ∧ ¬ Bonded D tr tr' last) ∧
          l[p]? = some lost.length := by
  obtain ⟨inv, hinv, hil⟩ := hw.row (t := t) (ps := D.positions[t]) (by simp)
  have hall : ∀ tr ∈ inv, ∃ k, (do
      let T ← getR D.trajectories.trajs tr
      if 1 < T.steps.length then do
        let l ← getLostNgbs D tr (firstTime T t half) (stopTime T t half)
        pure l.length
      else pure 0 : R Nat) = .ok k ∧ ∀ T, D.trajectories.trajs[tr]? = some T →
        ∃ (first last : Nat) (lost : List Nat), IsCentered T t half first last ∧ lost.Pairwise (· < ·) ∧
          (∀ tr', tr' ∈ lost ↔ Bonded D tr tr' first ∧ ¬ Bonded D tr tr' last) ∧ k = lost.length := by
    intro tr htr
    obtain ⟨T, hT, h1, h2⟩ := (exists_iff_mem hw hinv).2 htr
    have hmem := List.mem_of_getElem? hT
    have hc := centered_spec hw hmem h1 h2 half
    have hfit := hw.fits T hmem
    have hc1 := hc.first_ge
    have hc2 := hc.first_le
    have hc3 := hc.le_last
    have hc4 := hc.last_lt
    have e0 : Exists D tr (firstTime T t half) := ⟨T, hT, hc1, by omega⟩
    have e1 : Exists D tr (stopTime T t half) := ⟨T, hT, by omega, hc4⟩
    obtain ⟨lost, k1, k2, k3⟩ := C44_lost hw (hn _ (hw.frame_of_exists e0)) (hn _ (hw.frame_of_exists e1)) e0 e1
    refine ⟨lost.length, ?_, ?_⟩
    · rw [getR_ok.2 hT, ok_bind]
      by_cases hl : 1 < T.steps.length
      · rw [if_pos hl, k1]; rfl
      · rw [if_neg hl]
        have hfl : firstTime T t half = stopTime T t half := by omega
        have : lost = [] := by
          rw [List.eq_nil_iff_forall_not_mem]
          intro tr' htr'
          have := (k3 tr').1 htr'
          rw [hfl] at this
          exact this.2 this.1
        rw [this]; rfl
    · intro T' hT'
      rw [hT] at hT'
      cases hT'
      exact ⟨_, _, lost, hc, k2, k3, rfl⟩
  choose! k hk1 hk2 using hall
  refine ⟨inv.map k, ?_, by rw [List.length_map, hil], ?_⟩
  · unfold getNbLostNgbs
    rw [getR_ok.2 hinv, ok_bind]
    exact TreeIndex.mapM_ok_of _ _ _ hk1
  · intro p tr T hp hT
    obtain ⟨row, hr, hrp⟩ := invert_ok.1 ((hw.inverse t p tr).2 hp)
    rw [hinv] at hr
    cases hr
    obtain ⟨first, last, lost, h1, h2, h3, h4⟩ := hk2 tr (List.mem_of_getElem? hrp) T hT
    refine ⟨first, last, lost, h1, h2, h3, ?_⟩
    rw [List.getElem?_map, hrp]
    simp [h4]

/-- `exTwo` with the two particles bonded at time 0 only. -/
def exBonds : DynParts ℚ := { exTwo with ngbs := [[[1], [0]], [[], []], [[], []]] }

theorem exBonds_wf : Wf exBonds := by
  have := exTwo_wf
  exact ⟨this.nonempty, this.fits, this.size, this.frames, this.inverse⟩

theorem exBonds_ngb : ∀ u < exBonds.positions.length, NgbWf exBonds u := by
  intro u hu
  match u, hu with
  | 0, _ => exact ⟨_, _, rfl, rfl, rfl, by simp [exTwo]⟩
  | 1, _ => exact ⟨_, _, rfl, rfl, rfl, by simp⟩
  | 2, _ => exact ⟨_, _, rfl, rfl, rfl, by simp⟩
  | u + 3, h => simp [exBonds, exTwo] at h

example : Bonded exBonds 0 1 0 ∧ ¬ Bonded exBonds 0 1 1 := by
  refine ⟨⟨_, 0, [1], 1, rfl, by decide, rfl, by simp, by decide⟩, ?_⟩
  rintro ⟨N, p, row, q, h1, h2, h3, h4, -⟩
  have : N = [[], []] := by
    have : exBonds.ngbs[1]? = some [[], []] := rfl
    rw [this] at h1
    exact (Option.some.inj h1).symm
  subst this
  match p with
  | 0 => simp at h3; subst h3; simp at h4
  | 1 => simp at h3; subst h3; simp at h4
  | p + 2 => simp at h3

/-! ## C61 -/

/-- C61. With `halfInterval` not null, the velocity of each position of frame `t` is the displacement of
its trajectory between the ends of the centered interval, divided by the duration; it is null for a
trajectory of a single position. -/
theorem C61_velocities {D : DynParts G} (hw : Wf D) {t : Nat} (ht : t < D.positions.length) {half : Nat}
    (hh : 0 < half) :
    ∃ l, velocities D t half = .ok l ∧ l.length = (D.positions[t]).pos.length ∧
      ∀ p tr T, D.trajectories.convert t tr = .ok p → D.trajectories.trajs[tr]? = some T →
        (T.steps.length = 1 → l[p]? = some (some 0)) ∧
        (1 < T.steps.length → ∃ (first last : Nat) (x0 x1 : Coord G), IsCentered T t half first last ∧ first < last ∧
          at_ D tr first = .ok x0 ∧ at_ D tr last = .ok x1 ∧
          l[p]? = some (some (fun a => (x1 a - x0 a) / ((last - first : Nat) : G)))) := by
  obtain ⟨inv, hinv, hil⟩ := hw.row (t := t) (ps := D.positions[t]) (by simp)
  have hall : ∀ tr ∈ inv, ∃ k, (do
      let T ← getR D.trajectories.trajs tr
      if 1 < T.steps.length then do
        let start := firstTime T t half
        let stop := stopTime T t half
        let p1 ← T.at_ stop
        let f1 ← getR D.positions stop
        let x1 ← getR f1.pos p1
        let p0 ← T.at_ start
        let f0 ← getR D.positions start
        let x0 ← getR f0.pos p0
        pure (if stop - start = 0 then none else some (fun a => (x1 a - x0 a) / ((stop - start : Nat) : G)))
      else pure (some 0) : R (Option (Coord G))) = .ok k ∧ ∀ T, D.trajectories.trajs[tr]? = some T →
        (T.steps.length = 1 → k = some 0) ∧
        (1 < T.steps.length → ∃ (first last : Nat) (x0 x1 : Coord G), IsCentered T t half first last ∧ first < last ∧
          at_ D tr first = .ok x0 ∧ at_ D tr last = .ok x1 ∧
          k = some (fun a => (x1 a - x0 a) / ((last - first : Nat) : G))) := by
    intro tr htr
    obtain ⟨T, hT, h1, h2⟩ := (exists_iff_mem hw hinv).2 htr
    have hmem := List.mem_of_getElem? hT
    have hc := centered_spec hw hmem h1 h2 half
    have hc1 := hc.first_ge
    have hc2 := hc.first_le
    have hc3 := hc.le_last
    have hc4 := hc.last_lt
    have hc5 := hc.first_eq
    have hc6 := hc.last_eq
    by_cases hl : 1 < T.steps.length
    · have e0 : Exists D tr (firstTime T t half) := ⟨T, hT, hc1, by omega⟩
      have e1 : Exists D tr (stopTime T t half) := ⟨T, hT, by omega, hc4⟩
      obtain ⟨x0, hx0⟩ := (at_ok hw).1 e0
      obtain ⟨x1, hx1⟩ := (at_ok hw).1 e1
      have hlt : firstTime T t half < stopTime T t half := by omega
      have g0 := hx0
      have g1 := hx1
      unfold at_ at g0 g1
      rw [getR_ok.2 hT, ok_bind] at g0 g1
      obtain ⟨p0, a1, g0⟩ := bind_ok.1 g0
      obtain ⟨f0, a2, a3⟩ := bind_ok.1 g0
      obtain ⟨p1, b1, g1⟩ := bind_ok.1 g1
      obtain ⟨f1, b2, b3⟩ := bind_ok.1 g1
      refine ⟨some (fun a => (x1 a - x0 a) / ((stopTime T t half - firstTime T t half : Nat) : G)), ?_, ?_⟩
      · rw [getR_ok.2 hT, ok_bind, if_pos hl]
        simp only [a1, a2, a3, b1, b2, b3, ok_bind]
        rw [if_neg (by omega)]
        rfl
      · intro T' hT'
        rw [hT] at hT'
        cases hT'
        exact ⟨by omega, fun _ => ⟨_, _, x0, x1, hc, hlt, hx0, hx1, rfl⟩⟩
    · refine ⟨some 0, ?_, ?_⟩
      · rw [getR_ok.2 hT, ok_bind, if_neg hl]; rfl
      · intro T' hT'
        rw [hT] at hT'
        cases hT'
        exact ⟨fun _ => rfl, fun h => absurd h hl⟩
  choose! k hk1 hk2 using hall
  refine ⟨inv.map k, ?_, by rw [List.length_map, hil], ?_⟩
  · unfold velocities
    rw [getR_ok.2 hinv, ok_bind]
    exact TreeIndex.mapM_ok_of _ _ _ hk1
  · intro p tr T hp hT
    obtain ⟨row, hr, hrp⟩ := invert_ok.1 ((hw.inverse t p tr).2 hp)
    rw [hinv] at hr
    cases hr
    have hk := hk2 tr (List.mem_of_getElem? hrp) T hT
    have hget : (inv.map k)[p]? = some (k tr) := by rw [List.getElem?_map, hrp]; rfl
    rw [hget]
    refine ⟨fun h => by rw [hk.1 h], fun h => ?_⟩
    obtain ⟨first, last, x0, x1, h1, h2, h3, h4, h5⟩ := hk.2 h
    exact ⟨first, last, x0, x1, h1, h2, h3, h4, by rw [h5]⟩

/-- C61. With a null `halfInterval`, the velocity of a trajectory of several positions is undefined. -/
theorem C61_zero_counterexample {D : DynParts G} (hw : Wf D) {t : Nat} {l : List (Option (Coord G))}
    (h : velocities D t 0 = .ok l) (p tr : Nat) (T : Traj) (hp : D.trajectories.convert t tr = .ok p)
    (hT : D.trajectories.trajs[tr]? = some T) (hl : 1 < T.steps.length) : l[p]? = some none := by
  obtain ⟨inv, hinv, hrp⟩ := invert_ok.1 ((hw.inverse t p tr).2 hp)
  obtain ⟨T', hT', h1, h2⟩ := (exists_iff_convert hw).2 ⟨p, hp⟩
  rw [hT] at hT'
  cases hT'
  have hmem := List.mem_of_getElem? hT
  have hc := centered_spec hw hmem h1 h2 0
  have hc1 := hc.first_ge
  have hc2 := hc.first_le
  have hc3 := hc.le_last
  have hc4 := hc.last_lt
  have hc5 := hc.first_eq
  have hc6 := hc.last_eq
  unfold velocities at h
  rw [getR_ok.2 hinv, ok_bind] at h
  obtain ⟨v, hv1, hv2⟩ := mapM_getElem? h hrp
  rw [hv1]
  rw [getR_ok.2 hT, ok_bind, if_pos hl] at hv2
  simp only at hv2
  obtain ⟨p1, -, hv2⟩ := bind_ok.1 hv2
  obtain ⟨f1, -, hv2⟩ := bind_ok.1 hv2
  obtain ⟨x1, -, hv2⟩ := bind_ok.1 hv2
  obtain ⟨p0, -, hv2⟩ := bind_ok.1 hv2
  obtain ⟨f0, -, hv2⟩ := bind_ok.1 hv2
  obtain ⟨x0, -, hv2⟩ := bind_ok.1 hv2
  rw [if_pos (by omega)] at hv2
  injection hv2 with hv2
  rw [hv2]

/-- C61. `getSD(t, half)` is not the squared displacement during the centered interval: away from the ends
of the trajectory it is the squared displacement multiplied by `(2 half + 1)/(2 half)²`, which is never 1. -/
theorem C61_sd_counterexample [IsStrictOrderedRing G] {D : DynParts G} (hw : Wf D) {t : Nat}
    (ht : t < D.positions.length) {half : Nat} (hh : 0 < half) (p tr : Nat) (T : Traj)
    (hp : D.trajectories.convert t tr = .ok p) (hT : D.trajectories.trajs[tr]? = some T)
    (h1 : T.start + half ≤ t) (h2 : t + half < T.start + T.steps.length) (x0 x1 : Coord G)
    (hx0 : at_ D tr (t - half) = .ok x0) (hx1 : at_ D tr (t + half) = .ok x1) (hne : sqDist x1 x0 ≠ 0) :
    ∃ l y, getSDCentered D t half = .ok l ∧ l[p]? = some (some y) ∧
      y * (2 * half) ^ 2 = sqDist x1 x0 * (2 * half + 1) ∧ y ≠ sqDist x1 x0 := by
  obtain ⟨l, k1, k2, k3⟩ := C61_velocities hw ht hh
  obtain ⟨first, last, y0, y1, hc, hlt, g0, g1, hl⟩ := (k3 p tr T hp hT).2 (by omega)
  have hc1 := hc.first_ge
  have hc2 := hc.first_le
  have hc3 := hc.le_last
  have hc4 := hc.last_lt
  have hc5 := hc.first_eq
  have hc6 := hc.last_eq
  have hf : first = t - half := by omega
  have hla : last = t + half := by omega
  subst hf hla
  rw [hx0] at g0; cases g0
  rw [hx1] at g1; cases g1
  have hd : t + half - (t - half) = 2 * half := by omega
  rw [hd] at hl
  have hG : ((2 * half : Nat) : G) ≠ 0 := by
    have : 2 * half ≠ 0 := by omega
    exact_mod_cast this
  have hy : dot3 (fun a => (x1 a - x0 a) / ((2 * half : Nat) : G))
      (fun a => (x1 a - x0 a) / ((2 * half : Nat) : G)) * ((2 * half : Nat) : G) ^ 2 = sqDist x1 x0 := by
    unfold dot3 sqDist
    field_simp
  refine ⟨l.map (fun v => v.map (fun v => dot3 v v * ((half * 2 + 1 : Nat) : G))),
    dot3 (fun a => (x1 a - x0 a) / ((2 * half : Nat) : G))
      (fun a => (x1 a - x0 a) / ((2 * half : Nat) : G)) * ((half * 2 + 1 : Nat) : G), ?_, ?_, ?_, ?_⟩
  · unfold getSDCentered
    rw [k1, ok_bind]
    rfl
  · rw [List.getElem?_map, hl]
    rfl
  · rw [← hy]
    push_cast
    ring
  · intro h
    rw [← hy] at h hne
    have hd0 := left_ne_zero_of_mul hne
    have := mul_left_cancel₀ hd0 h
    have h' : half * 2 + 1 = (2 * half) ^ 2 := by exact_mod_cast this
    have h3 : (half * 2 + 1) % 2 = ((2 * half) ^ 2) % 2 := by rw [h']
    rw [Nat.pow_mod, Nat.mul_mod_right] at h3
    omega

example : ∃ x0 x1, exTwo.trajectories.convert 1 0 = .ok 1 ∧ at_ exTwo 0 0 = .ok x0 ∧
    at_ exTwo 0 2 = .ok x1 ∧ sqDist x1 x0 ≠ 0 :=
  ⟨![0, 0, 0], ![5, 0, 0], by decide +kernel, by decide +kernel, by decide +kernel, by decide +kernel⟩

end Dyn
end Colloids
