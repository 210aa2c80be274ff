import Verif.Mains.TauModel
import Verif.Mains.LostProps
import Mathlib.Tactic.NormNum
import Mathlib.Tactic.IntervalCases
import Mathlib.Algebra.Order.Ring.Rat
import Mathlib.Algebra.Field.Rat

/-! # The frequency of the jumps between cages -/

namespace Colloids
namespace Mains

/-- The cages cut the trajectories: the particle found in a cage follows it until the end of the cage, not after the
end of its trajectory. -/
structure CagesOk (ti cages : TrajIndex) : Prop where
  index : IndexOk ti
  cut : IndexOk cages
  follow : ∀ (t p tr : Nat) (T : Traj), ti.trajs[tr]? = some T → T.at_ t = .ok p →
    ∃ c C, cages.convert t c = .ok p ∧ cages.trajs[c]? = some C ∧ C.lastTime ≤ T.lastTime ∧
      ∀ s, t ≤ s → s ≤ C.lastTime → C.at_ s = T.at_ s

/-- A cage of the trajectory ends at `t`. -/
def CageEnd (cages : TrajIndex) (T : Traj) (t : Nat) : Prop :=
  ∃ p c C, T.at_ t = .ok p ∧ cages.convert t c = .ok p ∧ cages.trajs[c]? = some C ∧ C.lastTime = t

open Classical in
/-- The number of times from `t` to the end of the trajectory, distant from `u` of at most half `tau`, at which a cage
of the trajectory ends. -/
noncomputable def nbEnds (cages : TrajIndex) (tau : Nat) (T : Traj) (u t : Nat) : Nat :=
  (List.range' t (T.lastTime + 1 - t)).countP
    fun s => decide (CageEnd cages T s ∧ u ≤ s + tau / 2 ∧ s ≤ u + tau / 2)

/-- A cell of the counts. -/
def cellOf (jumps : List (List Nat)) (u p : Nat) : Option Nat := jumps[u]?.bind fun row => row[p]?

theorem countJump_ok {T : Traj} {jumps : List (List Nat)} {u p n : Nat} (ha : T.at_ u = .ok p)
    (hc : cellOf jumps u p = some n) :
    ∃ jumps', countJump T jumps u = .ok jumps' ∧
      ∀ u' p', cellOf jumps' u' p' = (cellOf jumps u' p').map fun k => k + if u' = u ∧ p' = p then 1 else 0 := by
  unfold cellOf at hc
  obtain ⟨row, hr, hp⟩ := Option.bind_eq_some_iff.1 hc
  have hu := (List.getElem?_eq_some_iff.1 hr).1
  have hpl := (List.getElem?_eq_some_iff.1 hp).1
  refine ⟨jumps.set u (row.modify p (· + 1)), ?_, ?_⟩
  · unfold countJump
    rw [bind_ok]
    refine ⟨p, ha, ?_⟩
    rw [bind_ok]
    refine ⟨row, getR_ok.2 hr, ?_⟩
    rw [bind_ok]
    exact ⟨_, modifyR_ok.2 ⟨hpl, rfl⟩, setR_ok.2 ⟨hu, rfl⟩⟩
  · intro u' p'
    unfold cellOf
    by_cases h : u' = u
    · subst h
      rw [List.getElem?_set_self hu, hr, Option.bind_some, Option.bind_some, List.getElem?_modify]
      by_cases h2 : p = p'
      · subst h2; simp
      · rw [if_neg (by simp; omega)]
        simp [h2]
    · rw [List.getElem?_set_ne (by omega), if_neg (by simp [h])]
      simp

theorem countFold {T : Traj} (n : Nat) : ∀ (start : Nat) (jumps : List (List Nat)),
    (∀ u, start ≤ u → u < start + n → ∃ p, T.at_ u = .ok p ∧ (cellOf jumps u p).isSome) →
    ∃ jumps', (List.range' start n).foldlM (countJump T) jumps = .ok jumps' ∧
      ∀ u p, cellOf jumps' u p =
        (cellOf jumps u p).map fun k => k + if T.at_ u = .ok p ∧ start ≤ u ∧ u < start + n then 1 else 0 := by
  induction n with
  | zero =>
    intro start jumps _
    refine ⟨jumps, rfl, fun u p => ?_⟩
    rw [if_neg (by omega)]; simp
  | succ n ih =>
    intro start jumps h
    obtain ⟨p, hp, hc⟩ := h start le_rfl (by omega)
    obtain ⟨k, hk⟩ := Option.isSome_iff_exists.1 hc
    obtain ⟨j1, h1, h1c⟩ := countJump_ok hp hk
    obtain ⟨j2, h2, h2c⟩ := ih (start + 1) j1 (by
      intro u hu1 hu2
      obtain ⟨q, hq, hqc⟩ := h u (by omega) (by omega)
      exact ⟨q, hq, by rw [h1c]; simpa using hqc⟩)
    refine ⟨j2, ?_, ?_⟩
    · rw [List.range'_succ, List.foldlM_cons, bind_ok]
      exact ⟨j1, h1, h2⟩
    · intro u q
      rw [h2c, h1c, Option.map_map]
      congr 1
      funext m
      simp only [Function.comp]
      by_cases hu : u = start
      · subst hu
        rw [hp]
        by_cases hq : q = p
        · subst hq; simp
        · have : ¬ p = q := fun h => hq h.symm
          simp [this, hq]
      · rw [if_neg (show ¬ (u = start ∧ q = p) from fun h => hu h.1)]
        have : (T.at_ u = .ok q ∧ start + 1 ≤ u ∧ u < start + 1 + n) ↔
            (T.at_ u = .ok q ∧ start ≤ u ∧ u < start + (n + 1)) := by
          constructor <;> rintro ⟨a, b, c⟩ <;> exact ⟨a, by omega, by omega⟩
        simp only [this, Nat.add_zero]

variable {ti cages : TrajIndex} {tau : Nat}

theorem at_span (h : IndexOk ti) {tr : Nat} {T : Traj} (hT : ti.trajs[tr]? = some T) :
    T.start ≤ T.lastTime ∧ T.lastTime < ti.inverse.length ∧
      ∀ t, (∃ p, T.at_ t = .ok p) ↔ T.start ≤ t ∧ t ≤ T.lastTime := by
  have hm := List.mem_of_getElem? hT
  have hne := h.nonempty T hm
  have hf := h.fits T hm
  have hs := h.size
  have hpos : 0 < T.steps.length := List.length_pos_iff.2 hne
  have hl := lastTime_eq hne (by omega : T.start + T.steps.length ≤ szMod)
  refine ⟨by omega, by omega, fun t => ?_⟩
  constructor
  · rintro ⟨p, hp⟩
    rw [at_eq hne (by omega)] at hp
    have := (List.getElem?_eq_some_iff.1 hp.2).1
    omega
  · rintro ⟨h1, h2⟩
    have : t - T.start < T.steps.length := by omega
    exact ⟨T.steps[t - T.start], (at_eq hne (by omega)).2 ⟨h1, by simp [this]⟩⟩

theorem nbEnds_past {T : Traj} {u t : Nat} (h : T.lastTime < t) : nbEnds cages tau T u t = 0 := by
  unfold nbEnds
  rw [show T.lastTime + 1 - t = 0 by omega]
  rfl

/-- The next end of a cage. -/
theorem nbEnds_next {T : Traj} {u t t' : Nat} (h1 : t ≤ t') (h2 : t' ≤ T.lastTime)
    (hno : ∀ s, t ≤ s → s < t' → ¬ CageEnd cages T s) (hend : CageEnd cages T t') :
    nbEnds cages tau T u t =
      (if u ≤ t' + tau / 2 ∧ t' ≤ u + tau / 2 then 1 else 0) + nbEnds cages tau T u (t' + 1) := by
  unfold nbEnds
  have e : T.lastTime + 1 - t = (t' - t) + (1 + (T.lastTime + 1 - (t' + 1))) := by omega
  rw [e, ← List.range'_append_1, List.countP_append, ← List.range'_append_1, List.countP_append,
    show t + (t' - t) = t' by omega]
  rw [List.countP_eq_zero.2, Nat.zero_add]
  · congr 1
    simp [hend]
  · intro s hs
    rw [List.mem_range'_1] at hs
    simp only [decide_eq_true_eq]
    exact fun hc => hno s hs.1 (by omega) hc.1

theorem window_start {a s e half : Nat} (h : max (s + half) e - half = a) (u : Nat) :
    a ≤ u ↔ s ≤ u ∧ e ≤ u + half := by omega

theorem window_stop {b l e half : Nat} (h : min l (e + half) = b) (u : Nat) :
    u ≤ b ↔ u ≤ l ∧ u ≤ e + half := by omega

open Classical in
theorem jumpLoop_ok (h : CagesOk ti cages) {tr : Nat} {T : Traj} (hT : ti.trajs[tr]? = some T) :
    ∀ (fuel t : Nat) (jumps : List (List Nat)), T.lastTime + 1 ≤ fuel + t → T.start ≤ t →
      (∀ u p, T.at_ u = .ok p → (cellOf jumps u p).isSome) →
      ∃ jumps', jumpLoop cages tau T (fuel + 1) t jumps = .ok jumps' ∧
        ∀ u p, cellOf jumps' u p =
          (cellOf jumps u p).map fun k => k + if T.at_ u = .ok p then nbEnds cages tau T u t else 0 := by
  obtain ⟨hsl, _, hspan⟩ := at_span h.index hT
  intro fuel
  induction fuel with
  | zero =>
    intro t jumps hf _ _
    unfold jumpLoop
    rw [if_neg (by omega)]
    refine ⟨jumps, rfl, fun u p => ?_⟩
    simp [nbEnds_past (show T.lastTime < t by omega)]
  | succ fuel ih =>
    intro t jumps hf ht hcell
    rw [jumpLoop]
    by_cases hlt : t < T.lastTime + 1
    · rw [if_pos hlt]
      obtain ⟨p, hp⟩ := (hspan t).2 ⟨ht, by omega⟩
      obtain ⟨c, C, hc, hC, hCl, hsame⟩ := h.follow t p tr T hT hp
      obtain ⟨C', hC', hc1, hc2, _, _, hc5⟩ := at_time h.cut hc
      rw [hC] at hC'; cases hC'
      have hno : ∀ s, t ≤ s → s < C.lastTime → ¬ CageEnd cages T s := by
        rintro s hs1 hs2 ⟨q, c', C', hq, hcv, hC', hl⟩
        have h1 : cages.convert s c = .ok q := convert_iff.2 ⟨C, hC, by rw [hsame s hs1 hs2.le, hq]⟩
        have e1 := (h.cut.inverse s q c).2 h1
        have e2 := (h.cut.inverse s q c').2 hcv
        rw [e1] at e2; cases e2
        rw [hC] at hC'; cases hC'
        omega
      have hend : CageEnd cages T C.lastTime := by
        obtain ⟨q, hq⟩ := (hspan C.lastTime).2 ⟨by omega, hCl⟩
        exact ⟨q, c, C, hq, convert_iff.2 ⟨C, hC, by rw [hsame _ hc2 le_rfl, hq]⟩, hC, rfl⟩
      rw [hp, ok_bind, (h.cut.inverse t p c).2 hc, ok_bind, getR_ok.2 hC, ok_bind]
      dsimp only
      generalize ha : max (T.start + tau / 2) C.lastTime - tau / 2 = a
      generalize hb : min T.lastTime (C.lastTime + tau / 2) = b
      have ha' : ∀ u, a ≤ u ↔ T.start ≤ u ∧ C.lastTime ≤ u + tau / 2 := window_start ha
      have hb' : ∀ u, u ≤ b ↔ u ≤ T.lastTime ∧ u ≤ C.lastTime + tau / 2 := window_stop hb
      obtain ⟨j1, hj1, hj1c⟩ := countFold (T := T) (b + 1 - a) a jumps (by
          intro u hu1 hu2
          have h1 := (ha' u).1 hu1
          have h2 := (hb' u).1 (by omega)
          obtain ⟨q, hq⟩ := (hspan u).2 ⟨h1.1, h2.1⟩
          exact ⟨q, hq, hcell u q hq⟩)
      rw [hj1, ok_bind]
      obtain ⟨j2, hj2, hj2c⟩ := ih (C.lastTime + 1) j1 (by omega) (by omega) (by
        intro u q hq
        rw [hj1c]
        simpa using hcell u q hq)
      refine ⟨j2, hj2, ?_⟩
      intro u q
      rw [hj2c, hj1c, Option.map_map]
      congr 1
      funext m
      simp only [Function.comp]
      by_cases hq : T.at_ u = .ok q
      · obtain ⟨s1, s2⟩ := (hspan u).1 ⟨q, hq⟩
        rw [if_pos hq, if_pos hq, nbEnds_next hc2 hCl hno hend, ← Nat.add_assoc]
        congr 2
        have : (T.at_ u = .ok q ∧ a ≤ u ∧ u < a + (b + 1 - a)) ↔
            (u ≤ C.lastTime + tau / 2 ∧ C.lastTime ≤ u + tau / 2) := by
          have h1 := ha' u
          have h2 := hb' u
          constructor
          · rintro ⟨_, x, y⟩
            exact ⟨(h2.1 (by omega)).2, (h1.1 x).2⟩
          · rintro ⟨x, y⟩
            have h3 := h1.2 ⟨s1, y⟩
            have h4 := h2.2 ⟨s2, x⟩
            exact ⟨hq, h3, by omega⟩
        simp only [this]
      · simp [hq]
    · rw [if_neg hlt]
      refine ⟨jumps, rfl, fun u p => ?_⟩
      simp [nbEnds_past (show T.lastTime < t by omega)]

open Classical in
theorem jumpFold (h : CagesOk ti cages) : ∀ (L : List Traj) (jumps : List (List Nat)), (∀ T ∈ L, T ∈ ti.trajs) →
    (∀ T ∈ ti.trajs, ∀ u p, T.at_ u = .ok p → (cellOf jumps u p).isSome) →
    ∃ jumps', L.foldlM (fun jumps T => jumpLoop cages tau T (T.lastTime + 2) T.start jumps) jumps = .ok jumps' ∧
      ∀ u p, cellOf jumps' u p = (cellOf jumps u p).map fun k =>
        k + (L.map fun T => if T.at_ u = .ok p then nbEnds cages tau T u T.start else 0).sum := by
  intro L
  induction L with
  | nil => intro jumps _ _; exact ⟨jumps, rfl, fun u p => by simp⟩
  | cons T L ih =>
    intro jumps hL hc
    obtain ⟨tr, hT⟩ := List.mem_iff_getElem?.1 (hL T (by simp))
    obtain ⟨j1, h1, h1c⟩ := jumpLoop_ok (tau := tau) h hT (T.lastTime + 1) T.start jumps
      (by omega) le_rfl (hc T (hL T (by simp)))
    obtain ⟨j2, h2, h2c⟩ := ih j1 (fun T hT => hL T (by simp [hT])) (by
      intro T' hT' u p hp
      rw [h1c]
      simpa using hc T' hT' u p hp)
    refine ⟨j2, ?_, ?_⟩
    · rw [List.foldlM_cons, bind_ok]
      exact ⟨j1, h1, h2⟩
    · intro u p
      rw [h2c, h1c, Option.map_map]
      congr 1
      funext k
      simp [Nat.add_assoc]

theorem sum_single {α : Type} {f : α → Nat} : ∀ {L : List α} {i : Nat} {a : α}, L[i]? = some a →
    (∀ (j : Nat) (b : α), L[j]? = some b → j ≠ i → f b = 0) → (L.map f).sum = f a
  | [], _, _, h, _ => by simp at h
  | x :: L, 0, a, h, ho => by
    simp only [List.getElem?_cons_zero, Option.some.injEq] at h
    subst h
    rw [List.map_cons, List.sum_cons]
    have : (L.map f).sum = 0 := by
      rw [List.sum_eq_zero]
      intro y hy
      obtain ⟨b, hb, rfl⟩ := List.mem_map.1 hy
      obtain ⟨j, hj⟩ := List.mem_iff_getElem?.1 hb
      exact ho (j + 1) b (by simpa using hj) (by omega)
    omega
  | x :: L, i + 1, a, h, ho => by
    rw [List.map_cons, List.sum_cons, ho 0 x (by simp) (by omega), Nat.zero_add]
    exact sum_single (by simpa using h) (fun j b hj hji => ho (j + 1) b (by simpa using hj) (by omega))

/-- **C113** (part) The count of a particle at `u` is the number of times, at most half `tau` before or after `u`, at
which a cage of its trajectory ends. (Missing: the last end, which is not a jump, see below; the frequency.) -/
theorem C113_count_partial (h : CagesOk ti cages) :
    ∃ jumps, jumpCounts ti cages tau = .ok jumps ∧
      ∀ (u p tr : Nat) (T : Traj), ti.trajs[tr]? = some T → T.at_ u = .ok p →
        cellOf jumps u p = some (nbEnds cages tau T u T.start) := by
  classical
  have hcell : ∀ T ∈ ti.trajs, ∀ u p, T.at_ u = .ok p →
      cellOf (ti.inverse.map fun inv => List.replicate inv.length 0) u p = some 0 := by
    intro T hT u p hp
    obtain ⟨tr, hT⟩ := List.mem_iff_getElem?.1 hT
    have := (h.index.inverse u p tr).2 (convert_iff.2 ⟨T, hT, hp⟩)
    obtain ⟨inv, hi, hpi⟩ := invert_iff.1 this
    unfold cellOf
    rw [List.getElem?_map, hi]
    simp only [Option.map_some, Option.bind_some]
    rw [List.getElem?_replicate, if_pos (List.getElem?_eq_some_iff.1 hpi).1]
  obtain ⟨jumps, h1, h2⟩ := jumpFold (tau := tau) h ti.trajs _ (fun T hT => hT)
    (fun T hT u p hp => by rw [hcell T hT u p hp]; rfl)
  refine ⟨jumps, h1, ?_⟩
  intro u p tr T hT hp
  rw [h2, hcell T (List.mem_of_getElem? hT) u p hp, Option.map_some, Nat.zero_add]
  rw [sum_single hT, if_pos hp]
  intro j T' hT' hj
  rw [if_neg]
  intro hp'
  have e1 := (h.index.inverse u p tr).2 (convert_iff.2 ⟨T, hT, hp⟩)
  have e2 := (h.index.inverse u p j).2 (convert_iff.2 ⟨T', hT', hp'⟩)
  rw [e1] at e2; cases e2
  exact hj rfl

/-- **C113** is false: a particle that stays in the same cage up to the end of its trajectory is counted a jump in the
last `tau/2` steps. -/
theorem C113_end_counterexample (h : CagesOk ti cages) {u p tr c : Nat} {T C : Traj} (hT : ti.trajs[tr]? = some T)
    (hp : T.at_ u = .ok p) (hC : cages.trajs[c]? = some C) (hsame : ∀ s, T.start ≤ s → C.at_ s = T.at_ s)
    (hu : T.lastTime ≤ u + tau / 2) :
    ∃ jumps, jumpCounts ti cages tau = .ok jumps ∧ cellOf jumps u p = some 1 := by
  obtain ⟨jumps, h1, h2⟩ := C113_count_partial (tau := tau) h
  obtain ⟨s1, s2, s3⟩ := at_span h.index hT
  obtain ⟨c1, c2, c3⟩ := at_span h.cut hC
  refine ⟨jumps, h1, ?_⟩
  rw [h2 u p tr T hT hp]
  have hu' := (s3 u).1 ⟨p, hp⟩
  have hl : C.lastTime = T.lastTime := by
    obtain ⟨q, hq⟩ := (s3 T.lastTime).2 ⟨s1, le_rfl⟩
    have a1 := ((c3 T.lastTime).1 ⟨q, by rw [hsame _ s1, hq]⟩).2
    obtain ⟨q', hq'⟩ := (c3 C.lastTime).2 ⟨c1, le_rfl⟩
    have a2 := ((s3 C.lastTime).1 ⟨q', by rw [← hsame _ (by omega), hq']⟩).2
    omega
  rw [nbEnds_next (t' := T.lastTime) s1 le_rfl, nbEnds_past (by omega), if_pos (by omega)]
  · rintro s hs1 hs2 ⟨q, c', C', hq, hcv, hC', hl'⟩
    have e1 := (h.cut.inverse s q c).2 (convert_iff.2 ⟨C, hC, by rw [hsame s hs1, hq]⟩)
    have e2 := (h.cut.inverse s q c').2 hcv
    rw [e1] at e2; cases e2
    rw [hC] at hC'; cases hC'
    omega
  · obtain ⟨q, hq⟩ := (s3 T.lastTime).2 ⟨s1, le_rfl⟩
    exact ⟨q, c, C, hq, convert_iff.2 ⟨C, hC, by rw [hsame _ s1, hq]⟩, hC, hl⟩

theorem jumpLength_eq {size u : Nat} (hu : u < size) :
    (List.range size).countP (fun s => decide (u ≤ s + tau / 2 ∧ s < u + tau / 2)) = jumpLength size tau u := by
  unfold jumpLength
  generalize hh : tau / 2 = half
  obtain ⟨a, ha⟩ : ∃ a, a = max half u - half := ⟨_, rfl⟩
  obtain ⟨b, hb⟩ : ∃ b, b = min size (u + half) := ⟨_, rfl⟩
  have e : size = a + ((b - a) + (size - b)) := by omega
  rw [← ha, ← hb, List.range_eq_range']
  conv_lhs => rw [e]
  rw [← List.range'_append_1, List.countP_append, ← List.range'_append_1,
    List.countP_append, List.countP_eq_zero.2, List.countP_eq_length.2, List.countP_eq_zero.2]
  · simp
  · intro s hs
    rw [List.mem_range'_1] at hs
    simp only [decide_eq_true_eq]
    omega
  · intro s hs
    rw [List.mem_range'_1] at hs
    simp only [decide_eq_true_eq]
    omega
  · intro s hs
    rw [List.mem_range'_1] at hs
    simp only [decide_eq_true_eq]
    omega

variable {G : Type} [Field G] [LinearOrder G]

omit [LinearOrder G] in
theorem exportJump_eq {jumps : List (List Nat)} (h : jumpCounts ti cages tau = .ok jumps) :
    exportJump (G := G) ti cages tau = .ok (jumps.zipIdx.map fun x => x.1.map fun (n : Nat) =>
      if jumpLength ti.inverse.length tau x.2 = 0 then none
      else some ((n : G) / (jumpLength ti.inverse.length tau x.2 : G))) := by
  unfold exportJump
  rw [h, ok_bind]
  rfl

omit [LinearOrder G] in
/-- What is written: the count divided by the number of steps `[u - tau/2, u + tau/2)` within the film. -/
theorem C113_frequency_partial (h : CagesOk ti cages) (ht : 2 ≤ tau) :
    ∃ out : List (List (Option G)), exportJump ti cages tau = .ok out ∧
      ∀ (u p tr : Nat) (T : Traj), ti.trajs[tr]? = some T → T.at_ u = .ok p →
        ∃ row, out[u]? = some row ∧ row[p]? = some (some
          ((nbEnds cages tau T u T.start : G) /
            (((List.range ti.inverse.length).countP fun s => decide (u ≤ s + tau / 2 ∧ s < u + tau / 2) : Nat) : G))) := by
  obtain ⟨jumps, h1, h2⟩ := C113_count_partial (tau := tau) h
  refine ⟨_, exportJump_eq h1, ?_⟩
  intro u p tr T hT hp
  obtain ⟨row, hr, hn⟩ := Option.bind_eq_some_iff.1 (h2 u p tr T hT hp)
  have hspan := at_span h.index hT
  have hu := (hspan.2.2 u).1 ⟨p, hp⟩
  have hlen := jumpLength_eq (tau := tau) (show u < ti.inverse.length by omega)
  have hpos : jumpLength ti.inverse.length tau u ≠ 0 := by
    unfold jumpLength
    omega
  rw [hlen]
  refine ⟨_, by rw [List.getElem?_map, List.getElem?_zipIdx, hr, Option.map_some, Option.map_some, Nat.zero_add], ?_⟩
  rw [List.getElem?_map, hn, Option.map_some, if_neg hpos]

omit [LinearOrder G] in
/-- **C113** is false with an interval shorter than two steps: everything is divided by zero. -/
theorem C113_short_counterexample (h : CagesOk ti cages) (ht : tau < 2) :
    ∃ out : List (List (Option G)), exportJump ti cages tau = .ok out ∧ ∀ row ∈ out, ∀ x ∈ row, x = none := by
  obtain ⟨jumps, h1, h2⟩ := C113_count_partial (tau := tau) h
  refine ⟨_, exportJump_eq h1, ?_⟩
  intro row hr x hx
  obtain ⟨⟨l, u⟩, _, rfl⟩ := List.mem_map.1 hr
  obtain ⟨n, _, rfl⟩ := List.mem_map.1 hx
  have : jumpLength ti.inverse.length tau u = 0 := by
    unfold jumpLength
    omega
  simp [this]

/-! ### An example -/

/-- A film of four frames, two particles; the first has a cage from 0 to 1 and another from 2 to 3, the second stays
in the same cage. -/
def jumpTrajs : TrajIndex :=
  { trajs := [⟨0, [0, 0, 1, 1]⟩, ⟨0, [1, 1, 0, 0]⟩], inverse := [[0, 1], [0, 1], [1, 0], [1, 0]] }

def jumpCages : TrajIndex :=
  { trajs := [⟨0, [0, 0]⟩, ⟨0, [1, 1, 0, 0]⟩, ⟨2, [1, 1]⟩], inverse := [[0, 1], [0, 1], [1, 2], [1, 2]] }

theorem index_of_bounds {ti : TrajIndex} (hne : ∀ T ∈ ti.trajs, T.steps ≠ [])
    (hf : ∀ T ∈ ti.trajs, T.start + T.steps.length ≤ ti.inverse.length) (hs : ti.inverse.length < szMod)
    (h1 : ∀ x ∈ ti.inverse.zipIdx, ∀ y ∈ x.1.zipIdx, (ti.trajs[y.1]?.any fun T => decide (T.start ≤ x.2 ∧
      T.steps[x.2 - T.start]? = some y.2)) = true)
    (h2 : ∀ x ∈ ti.trajs.zipIdx, ∀ y ∈ x.1.steps.zipIdx, (ti.inverse[x.1.start + y.2]?.any fun inv =>
      decide (inv[y.1]? = some x.2)) = true) : IndexOk ti := by
  refine ⟨?_, hne, hf, hs⟩
  intro t p tr
  rw [invert_iff, convert_iff]
  constructor
  · rintro ⟨inv, hi, hp⟩
    have := h1 (inv, t) (List.mem_zipIdx_iff_getElem?.2 hi) (tr, p) (List.mem_zipIdx_iff_getElem?.2 hp)
    dsimp only at this
    cases hT : ti.trajs[tr]? with
    | none => rw [hT] at this; simp at this
    | some T =>
    rw [hT] at this
    obtain ⟨ha, hb⟩ := of_decide_eq_true (by simpa only [Option.any_some] using this)
    have hm := List.mem_of_getElem? hT
    exact ⟨T, rfl, (at_eq (hne T hm) (by have := hf T hm; omega)).2 ⟨ha, hb⟩⟩
  · rintro ⟨T, hT, ha⟩
    have hm := List.mem_of_getElem? hT
    rw [at_eq (hne T hm) (by have := hf T hm; omega)] at ha
    have := h2 (T, tr) (List.mem_zipIdx_iff_getElem?.2 hT) (p, t - T.start) (List.mem_zipIdx_iff_getElem?.2 ha.2)
    rw [show T.start + (t - T.start) = t by omega] at this
    cases hi : ti.inverse[t]? with
    | none => rw [hi] at this; simp at this
    | some inv => rw [hi] at this; exact ⟨inv, rfl, by simpa using this⟩

theorem jump_ok : CagesOk jumpTrajs jumpCages := by
  have hsz : 10 ≤ szMod := by simp [szMod]
  have hi1 : IndexOk jumpTrajs :=
    index_of_bounds (by decide) (by decide) (by simp [jumpTrajs]; omega) (by decide) (by decide)
  have hi2 : IndexOk jumpCages :=
    index_of_bounds (by decide) (by decide) (by simp [jumpCages]; omega) (by decide) (by decide)
  refine ⟨hi1, hi2, ?_⟩
  have hat : ∀ (T : Traj), T.steps ≠ [] → T.start + T.steps.length ≤ 10 → ∀ t p, T.at_ t = .ok p ↔
      T.start ≤ t ∧ T.steps[t - T.start]? = some p := fun T h1 h2 t p => at_eq h1 (by omega)
  intro t p tr T hT hp
  have ht : t < 4 := by
    have := ((at_span hi1 hT).2.2 t).1 ⟨p, hp⟩
    have := (at_span hi1 hT).2.1
    simp [jumpTrajs] at this
    omega
  have hl0 : ∀ (T : Traj), T.steps ≠ [] → T.start + T.steps.length ≤ 10 →
      T.lastTime = T.start + T.steps.length - 1 := fun T h1 h2 => lastTime_eq h1 (by omega)
  match tr with
  | 0 =>
    have hT : T = ⟨0, [0, 0, 1, 1]⟩ := by simpa [jumpTrajs, eq_comm] using hT
    subst hT
    have hp' := (hat _ (by simp) (by simp) t p).1 hp
    by_cases h2 : t < 2
    · refine ⟨0, ⟨0, [0, 0]⟩, convert_iff.2 ⟨⟨0, [0, 0]⟩, rfl, (hat _ (by simp) (by simp) t p).2 ?_⟩, rfl, ?_, ?_⟩
      · interval_cases t <;> simpa using hp'
      · rw [hl0 _ (by simp) (by simp), hl0 _ (by simp) (by simp)]; simp
      · intro s _ hs
        rw [hl0 _ (by simp) (by simp)] at hs
        simp at hs
        interval_cases s <;> decide +kernel
    · refine ⟨2, ⟨2, [1, 1]⟩, convert_iff.2 ⟨⟨2, [1, 1]⟩, rfl, (hat _ (by simp) (by simp) t p).2 ?_⟩, rfl, ?_, ?_⟩
      · interval_cases t <;> simpa using hp'
      · rw [hl0 _ (by simp) (by simp), hl0 _ (by simp) (by simp)]; simp
      · intro s h1 hs
        rw [hl0 _ (by simp) (by simp)] at hs
        simp at hs
        have : 2 ≤ s := by omega
        interval_cases s <;> decide +kernel
  | 1 =>
    have hT : T = ⟨0, [1, 1, 0, 0]⟩ := by simpa [jumpTrajs, eq_comm] using hT
    subst hT
    exact ⟨1, _, convert_iff.2 ⟨_, rfl, hp⟩, rfl, le_rfl, fun _ _ _ => rfl⟩
  | tr + 2 => simp [jumpTrajs] at hT

/-- The second particle, which does not jump, is counted a jump at the end. -/
example : ∃ jumps, jumpCounts jumpTrajs jumpCages 2 = .ok jumps ∧ cellOf jumps 2 0 = some 1 :=
  C113_end_counterexample jump_ok (u := 2) (tr := 1) (c := 1) (T := ⟨0, [1, 1, 0, 0]⟩) rfl (by decide +kernel) rfl
    (fun _ _ => rfl) (by decide +kernel)

end Mains
end Colloids
