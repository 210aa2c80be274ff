import Verif.Py.BrokenProps

/-! # Bonds that never form again in python (C172) -/

namespace Colloids
namespace Py
namespace Broken
open Average (idx_some)
open TreeIndex (mapM_ok_of)

/-- One can go from a trajectory to another in `k` bonds. -/
inductive Walk (f : Frame) : Nat → Nat → Nat → Prop
  | zero (a : Nat) : Walk f a a 0
  | cons {a b c k : Nat} : f.Bonded a c → Walk f c b k → Walk f a b (k + 1)

/-- The distance on the graph of the bonds, between two trajectories that exist at this time. -/
def Dist (f : Frame) (a b k : Nat) : Prop := a ∈ f.p2tr ∧ b ∈ f.p2tr ∧ Walk f a b k ∧ ∀ m, Walk f a b m → k ≤ m

/-- What networkx is expected to give: the number of nodes of a shortest path, that is one more than its number of bonds, and an exception (here `none`)
without path. -/
def IsShortest (len : Frame → Nat → Nat → Option Nat) : Prop :=
  ∀ f a b n, len f a b = some n ↔ ∃ k, n = k + 1 ∧ Walk f a b k ∧ ∀ m, Walk f a b m → k ≤ m

/-- Shortest paths exist. -/
theorem shortest_exists : ∃ len, IsShortest len := by
  classical
  refine ⟨fun f a b => if h : ∃ k, Walk f a b k then some (Nat.find h + 1) else none, fun f a b n => ?_⟩
  by_cases h : ∃ k, Walk f a b k
  · simp only [h, dite_true, Option.some.injEq]
    constructor
    · rintro rfl
      exact ⟨Nat.find h, rfl, Nat.find_spec h, fun m hm => Nat.find_min' h hm⟩
    · rintro ⟨k, rfl, hk, hmin⟩
      have h1 := Nat.find_min' h hk
      have h2 := hmin _ (Nat.find_spec h)
      omega
  · simp only [h, dite_false]
    refine ⟨by simp, ?_⟩
    rintro ⟨k, -, hk, -⟩
    exact absurd ⟨k, hk⟩ h

theorem shortest_iff {len : Frame → Nat → Nat → Option Nat} (hl : IsShortest len) (f : Frame) (a b n : Nat) :
    shortest len f (a, b) = some n ↔ ∃ k, n = k + 1 ∧ Dist f a b k := by
  unfold shortest Dist
  by_cases h : a ∈ f.p2tr ∧ b ∈ f.p2tr
  · rw [if_pos h, hl]
    simp [h]
  · rw [if_neg h]
    constructor
    · intro h'
      cases h'
    · rintro ⟨k, -, h1, h2, -⟩
      exact absurd ⟨h1, h2⟩ h

theorem Dist.unique {f : Frame} {a b k k' : Nat} (h : Dist f a b k) (h' : Dist f a b k') : k = k' :=
  Nat.le_antisymm (h.2.2.2 _ h'.2.2.1) (h'.2.2.2 _ h.2.2.1)

/-- Bonded trajectories are at most at the distance 1. -/
theorem Bonded.dist {f : Frame} {a b : Nat} (h : f.Bonded a b) : ∃ k, k ≤ 1 ∧ Dist f a b k := by
  classical
  have hw : Walk f a b 1 := .cons h (.zero b)
  have hex : ∃ k, Walk f a b k := ⟨1, hw⟩
  exact ⟨Nat.find hex, Nat.find_min' hex hw, h.mem.1, h.mem.2, Nat.find_spec hex, fun m hm => Nat.find_min' hex hm⟩

/-! ## The dictionary -/

theorem mem_put {d : Dict} {k k' : Nat × Nat} {v v' : Nat} : (k', v') ∈ d.put k v ↔ (k' = k ∧ v' = v) ∨ (k' ≠ k ∧ (k', v') ∈ d) := by
  unfold Dict.put
  rw [List.mem_cons, List.mem_filter, decide_eq_true_eq, Prod.mk.injEq, and_comm (a := (k', v') ∈ d)]

theorem mem_pop {d : Dict} {k k' : Nat × Nat} {v : Nat} : (k', v) ∈ d.pop k ↔ (k', v) ∈ d ∧ k' ≠ k := by
  unfold Dict.pop
  rw [List.mem_filter, decide_eq_true_eq]

theorem put_nodup {d : Dict} {k : Nat × Nat} {v : Nat} (h : (d.map (·.1)).Nodup) : ((d.put k v).map (·.1)).Nodup := by
  unfold Dict.put
  rw [List.map_cons, List.nodup_cons]
  refine ⟨?_, h.sublist (List.filter_sublist.map _)⟩
  intro hk
  obtain ⟨x, hx, e⟩ := List.mem_map.1 hk
  rw [List.mem_filter, decide_eq_true_eq] at hx
  exact hx.2 e

theorem pop_nodup {d : Dict} {k : Nat × Nat} (h : (d.map (·.1)).Nodup) : ((d.pop k).map (·.1)).Nodup :=
  h.sublist (List.filter_sublist.map _)

theorem mem_pops (e : List (Nat × Nat)) : ∀ (d : Dict), (d.map (·.1)).Nodup → ((e.foldl Dict.pop d).map (·.1)).Nodup
    ∧ ∀ k v, (k, v) ∈ e.foldl Dict.pop d ↔ (k, v) ∈ d ∧ k ∉ e := by
  induction e with
  | nil => intro d h; exact ⟨h, by simp⟩
  | cons c e ih =>
    intro d h
    obtain ⟨h1, h2⟩ := ih (d.pop c) (pop_nodup h)
    refine ⟨h1, fun k v => ?_⟩
    rw [List.foldl_cons, h2, mem_pop, List.mem_cons, not_or, and_assoc]

/-- A trajectory is long enough. -/
def Long (lens : List Nat) (minLength : Option Nat) (a : Nat) : Prop := ∀ m, minLength = some m → ∃ u, lens[a]? = some u ∧ m < u

theorem longEnough_ok {lens : List Nat} {minLength : Option Nat} {a b : Nat} (ha : a < lens.length) (hb : b < lens.length) :
    ∃ r, longEnough lens minLength (a, b) = .ok r ∧ (r = true ↔ Long lens minLength a ∧ Long lens minLength b) := by
  unfold longEnough Long
  cases minLength with
  | none => exact ⟨true, rfl, by simp⟩
  | some m =>
    refine ⟨decide (m < min lens[a] lens[b]), ?_, ?_⟩
    · rw [idx_some (List.getElem?_eq_getElem ha)]
      simp only [ok_bind]
      rw [idx_some (List.getElem?_eq_getElem hb)]
      rfl
    · rw [decide_eq_true_eq, lt_min_iff]
      constructor
      · rintro ⟨h1, h2⟩
        exact ⟨fun m' e => by cases e; exact ⟨_, List.getElem?_eq_getElem ha, h1⟩, fun m' e => by cases e; exact ⟨_, List.getElem?_eq_getElem hb, h2⟩⟩
      · rintro ⟨h1, h2⟩
        obtain ⟨u, hu, h1⟩ := h1 m rfl
        obtain ⟨v, hv, h2⟩ := h2 m rfl
        rw [List.getElem?_eq_getElem ha, Option.some.injEq] at hu
        rw [List.getElem?_eq_getElem hb, Option.some.injEq] at hv
        subst hu
        subst hv
        exact ⟨h1, h2⟩

/-- Well formed frames of trajectories that exist, with bonds. -/
structure Frame.Good (f : Frame) (lens : List Nat) : Prop where
  wf : f.WF
  some : f.bonds ≠ []
  known : ∀ a ∈ f.p2tr, a < lens.length

theorem pairsOf_ok {f : Frame} (w : f.WF) (b : f.bonds ≠ []) : ∃ e, pairsOf f = .ok e ∧ ∀ x y, (x, y) ∈ e ↔ x ≤ y ∧ f.Bonded x y := by
  refine ⟨(f.bonds.map f.pair).map sortPair, ?_, fun x y => mem_pairs w⟩
  unfold pairsOf
  rw [if_neg b, translate_ok w]
  rfl

/-- The bonds that break between two times and leave their members at least `L` bonds apart. -/
def Breaks (lens : List Nat) (L : Nat) (minLength : Option Nat) (f0 f1 : Frame) (a b : Nat) : Prop :=
  a ≤ b ∧ f0.Bonded a b ∧ ¬ f1.Bonded a b ∧ (∃ k, L ≤ k ∧ Dist f1 a b k) ∧ Long lens minLength a ∧ Long lens minLength b

theorem record_fold {lens : List Nat} {L : Nat} {minLength : Option Nat} {t : Nat} : ∀ (paths : List ((Nat × Nat) × Nat)) (d : Dict),
    (∀ x ∈ paths, x.1.1 < lens.length ∧ x.1.2 < lens.length) → (d.map (·.1)).Nodup →
    ∃ d' : Dict, paths.foldlM (fun (d : Dict) x =>
      if x.2 ≤ L then .ok d
      else do
        let keep ← longEnough lens minLength x.1
        pure (if keep then d.put x.1 t else d)) d = .ok d' ∧ (d'.map (·.1)).Nodup
      ∧ ∀ a b v, ((a, b), v) ∈ d' ↔ (v = t ∧ (∃ n, ((a, b), n) ∈ paths ∧ L < n) ∧ Long lens minLength a ∧ Long lens minLength b)
        ∨ (¬ ((∃ n, ((a, b), n) ∈ paths ∧ L < n) ∧ Long lens minLength a ∧ Long lens minLength b) ∧ ((a, b), v) ∈ d) := by
  intro paths
  induction paths with
  | nil =>
    intro d _ hd
    exact ⟨d, rfl, hd, by simp⟩
  | cons x paths ih =>
    intro d hp hd
    obtain ⟨⟨u, w⟩, n⟩ := x
    have hx := hp _ (List.mem_cons_self ..)
    have hp' : ∀ x ∈ paths, x.1.1 < lens.length ∧ x.1.2 < lens.length := fun x hx => hp x (by simp [hx])
    rw [List.foldlM_cons]
    by_cases hn : n ≤ L
    · obtain ⟨d', h1, h2, h3⟩ := ih d hp' hd
      refine ⟨d', ?_, h2, fun a b v => ?_⟩
      · rw [if_pos hn, ok_bind]
        exact h1
      · rw [h3]
        have : (∃ m, ((a, b), m) ∈ ((u, w), n) :: paths ∧ L < m) ↔ ∃ m, ((a, b), m) ∈ paths ∧ L < m := by
          constructor
          · rintro ⟨m, hm, hL⟩
            rcases List.mem_cons.1 hm with e | hm
            · cases e
              omega
            · exact ⟨m, hm, hL⟩
          · rintro ⟨m, hm, hL⟩
            exact ⟨m, by simp [hm], hL⟩
        rw [this]
    · obtain ⟨r, hr, hrl⟩ := longEnough_ok (minLength := minLength) hx.1 hx.2
      obtain ⟨d', h1, h2, h3⟩ := ih (if r then d.put (u, w) t else d) hp' (by split <;> [exact put_nodup hd; exact hd])
      refine ⟨d', ?_, h2, fun a b v => ?_⟩
      · rw [if_neg hn]
        simp only [hr, ok_bind, pure_eq_ok]
        exact h1
      · rw [h3]
        by_cases hab : (a, b) = (u, w)
        · cases hab
          have e : ∃ m, ((u, w), m) ∈ ((u, w), n) :: paths ∧ L < m := ⟨n, by simp, by omega⟩
          by_cases hlong : Long lens minLength u ∧ Long lens minLength w
          · rw [if_pos (hrl.2 hlong), mem_put]
            have e' : (∃ n_1, ((u, w), n_1) ∈ ((u, w), n) :: paths ∧ L < n_1) = True := eq_true e
            simp only [e', hlong, and_true, true_and, ne_eq, not_true, false_and, or_false]
            constructor
            · rintro (⟨h, -⟩ | ⟨-, h⟩) <;> exact h
            · intro h
              by_cases hex : ∃ n, ((u, w), n) ∈ paths ∧ L < n
              · exact .inl ⟨h, hex⟩
              · exact .inr ⟨hex, h⟩
          · have : r = false := by
              cases r
              · rfl
              · exact absurd (hrl.1 rfl) hlong
            rw [this]
            simp only [hlong, and_false, false_or, not_false_eq_true, true_and]
            rfl
        · have e : (∃ m, ((a, b), m) ∈ ((u, w), n) :: paths ∧ L < m) ↔ ∃ m, ((a, b), m) ∈ paths ∧ L < m := by
            constructor
            · rintro ⟨m, hm, hL⟩
              rcases List.mem_cons.1 hm with e | hm
              · exact absurd (congrArg Prod.fst e) hab
              · exact ⟨m, hm, hL⟩
            · rintro ⟨m, hm, hL⟩
              exact ⟨m, by simp [hm], hL⟩
          rw [e]
          cases r with
          | false => exact Iff.rfl
          | true =>
            rw [if_pos rfl, mem_put]
            simp only [hab, false_and, ne_eq, not_false_eq_true, true_and, false_or]

theorem record_ok {len : Frame → Nat → Nat → Option Nat} (hl : IsShortest len) {lens : List Nat} {L : Nat} {minLength : Option Nat} {t : Nat} {f0 f1 : Frame}
    (g0 : f0.Good lens) (g1 : f1.Good lens) {d : Dict} (hd : (d.map (·.1)).Nodup) :
    ∃ d', record len lens L minLength t f0 f1 d = .ok d' ∧ (d'.map (·.1)).Nodup
      ∧ ∀ a b v, ((a, b), v) ∈ d' ↔ (v = t ∧ Breaks lens L minLength f0 f1 a b) ∨ (¬ Breaks lens L minLength f0 f1 a b ∧ ((a, b), v) ∈ d) := by
  obtain ⟨e0, h0, m0⟩ := pairsOf_ok g0.wf g0.some
  obtain ⟨e1, h1, m1⟩ := pairsOf_ok g1.wf g1.some
  set paths := (e0.filter (· ∉ e1)).dedup.filterMap fun x => (shortest len f1 x).map fun n => (x, n) with hpaths
  have hb : brokenPaths len f0 f1 = .ok paths := by
    unfold brokenPaths
    rw [h0, ok_bind, h1, ok_bind]
    rfl
  have hm : ∀ a b n, ((a, b), n) ∈ paths ↔ a ≤ b ∧ f0.Bonded a b ∧ ¬ f1.Bonded a b ∧ ∃ k, n = k + 1 ∧ Dist f1 a b k := by
    intro a b n
    rw [hpaths, List.mem_filterMap, ← shortest_iff hl]
    constructor
    · rintro ⟨x, hx, e⟩
      cases hs : shortest len f1 x with
      | none => rw [hs] at e; cases e
      | some m =>
        rw [hs] at e
        simp only [Option.map_some, Option.some.injEq, Prod.mk.injEq] at e
        obtain ⟨rfl, rfl⟩ := e
        rw [List.mem_dedup, List.mem_filter, decide_eq_true_eq, m0, m1] at hx
        exact ⟨hx.1.1, hx.1.2, fun h => hx.2 ⟨hx.1.1, h⟩, hs⟩
    · rintro ⟨hab, hb0, hb1, hs⟩
      refine ⟨(a, b), ?_, by rw [hs]; rfl⟩
      rw [List.mem_dedup, List.mem_filter, decide_eq_true_eq, m0, m1]
      exact ⟨⟨hab, hb0⟩, fun h => hb1 h.2⟩
  obtain ⟨d', k1, k2, k3⟩ := record_fold (lens := lens) (L := L) (minLength := minLength) (t := t) paths d (by
    rintro ⟨⟨a, b⟩, n⟩ hx
    obtain ⟨-, hb, -⟩ := (hm a b n).1 hx
    exact ⟨g0.known a hb.mem.1, g0.known b hb.mem.2⟩) hd
  refine ⟨d', ?_, k2, fun a b v => ?_⟩
  · unfold record
    rw [hb, ok_bind]
    exact k1
  · rw [k3]
    have : (∃ n, ((a, b), n) ∈ paths ∧ L < n) ∧ Long lens minLength a ∧ Long lens minLength b ↔ Breaks lens L minLength f0 f1 a b := by
      unfold Breaks
      constructor
      · rintro ⟨⟨n, hn, hL⟩, h1, h2⟩
        obtain ⟨hab, hb0, hb1, k, rfl, hk⟩ := (hm a b n).1 hn
        exact ⟨hab, hb0, hb1, ⟨k, by omega, hk⟩, h1, h2⟩
      · rintro ⟨hab, hb0, hb1, ⟨k, hL, hk⟩, h1, h2⟩
        exact ⟨⟨k + 1, (hm a b _).2 ⟨hab, hb0, hb1, k, rfl, hk⟩, by omega⟩, h1, h2⟩
    rw [this]

/-- An invariant of the loop on the times. -/
theorem run_inv {step : Nat → Frame → Frame → Dict → R Dict} (I : Nat → Dict → Prop) {frames : List Frame} (hI : I 1 []) (h0 : frames ≠ [])
    (hs : ∀ t f0 f1 d, frames[t]? = some f0 → frames[t + 1]? = some f1 → I (t + 1) d → ∃ d', step (t + 1) f0 f1 d = .ok d' ∧ I (t + 2) d') :
    ∃ d, run step 0 none frames [] = .ok d ∧ I frames.length d := by
  have key : ∀ (fs : List Frame) (t : Nat) (f0 : Frame) (d : Dict), frames[t]? = some f0 → (∀ i, fs[i]? = frames[t + 1 + i]?) →
      frames.length = t + 1 + fs.length → I (t + 1) d → ∃ d', run step (t + 1) (some f0) fs d = .ok d' ∧ I frames.length d' := by
    intro fs
    induction fs with
    | nil =>
      intro t f0 d _ _ hlen hd
      refine ⟨d, rfl, ?_⟩
      rw [hlen]
      exact hd
    | cons f fs ih =>
      intro t f0 d ht hi hlen hd
      have hf : frames[t + 1]? = some f := by
        have := hi 0
        rw [List.getElem?_cons_zero, Nat.add_zero] at this
        exact this.symm
      obtain ⟨d1, h1, h2⟩ := hs t f0 f d ht hf hd
      obtain ⟨d2, h3, h4⟩ := ih (t + 1) f d1 hf (fun i => by
        have := hi (i + 1)
        rw [List.getElem?_cons_succ] at this
        rw [this]
        congr 1
        omega) (by rw [hlen, List.length_cons]; omega) h2
      refine ⟨d2, ?_, h4⟩
      rw [run, if_pos (by omega)]
      simp only [h1, ok_bind]
      exact h3
  cases frames with
  | nil => exact absurd rfl h0
  | cons f fs =>
    obtain ⟨d, h1, h2⟩ := key fs 0 f [] rfl (fun i => by rw [Nat.add_comm, List.getElem?_cons_succ]) (by rw [List.length_cons]; omega) hI
    refine ⟨d, ?_, h2⟩
    rw [run, if_neg (by omega)]
    exact h1

theorem perTime_rows {size : Nat} {d : Dict} (hd : (d.map (·.1)).Nodup) :
    (perTime size d).length = size ∧ ∀ (t : Nat) (row : List (Nat × Nat)), (perTime size d)[t]? = some row → row.Nodup ∧ ∀ x, x ∈ row ↔ (x, t) ∈ d := by
  refine ⟨by simp [perTime], fun t row h => ?_⟩
  rw [perTime, Linker.get_mapRange] at h
  split_ifs at h
  cases h
  refine ⟨hd.sublist (List.filter_sublist.map _), fun x => ?_⟩
  rw [List.mem_map]
  constructor
  · rintro ⟨⟨y, t'⟩, hy, rfl⟩
    rw [List.mem_filter, decide_eq_true_eq] at hy
    obtain ⟨h1, rfl⟩ := hy
    exact h1
  · intro hx
    exact ⟨(x, t), List.mem_filter.2 ⟨hx, by simp⟩, rfl⟩

/-- C172. `neverreform` gives for each time, each one once and the smallest trajectory first, the pairs that were bonded at the time before, are at this time at
least `L` bonds apart on the graph, and are not bonded at this time nor at any later one. -/
theorem C172_reform_partial {len : Frame → Nat → Nat → Option Nat} (hl : IsShortest len) (lens : List Nat) (L : Nat) (minLength : Option Nat) {frames : List Frame}
    (h0 : frames ≠ []) (hg : ∀ f ∈ frames, f.Good lens) :
    ∃ rows, neverReform len lens L minLength 0 frames = .ok rows ∧ rows.length = frames.length
      ∧ ∀ (t : Nat) (row : List (Nat × Nat)), rows[t]? = some row → row.Nodup ∧ ∀ a b, (a, b) ∈ row ↔ a ≤ b ∧
        (∃ f0 f1, 0 < t ∧ frames[t - 1]? = some f0 ∧ frames[t]? = some f1 ∧ f0.Bonded a b ∧ ∃ k, L ≤ k ∧ Dist f1 a b k)
        ∧ Long lens minLength a ∧ Long lens minLength b ∧ ∀ t' f, t ≤ t' → frames[t']? = some f → ¬ f.Bonded a b := by
  obtain ⟨d, h1, h2, h3⟩ := run_inv (step := stepReform len lens L minLength) (frames := frames)
    (I := fun T d => (d.map (·.1)).Nodup ∧ ∀ a b v, ((a, b), v) ∈ d ↔ a ≤ b ∧
        (∃ f0 f1, 0 < v ∧ v < T ∧ frames[v - 1]? = some f0 ∧ frames[v]? = some f1 ∧ f0.Bonded a b ∧ ∃ k, L ≤ k ∧ Dist f1 a b k)
        ∧ Long lens minLength a ∧ Long lens minLength b ∧ ∀ t' f, v ≤ t' → t' < T → frames[t']? = some f → ¬ f.Bonded a b)
    ⟨by simp, by
      intro a b v
      refine ⟨by simp, ?_⟩
      rintro ⟨-, ⟨f0, f1, hv, hv', -⟩, -⟩
      omega⟩ h0 (by
      intro t f0 f1 d e0 e1 hd
      obtain ⟨hn, hm⟩ := hd
      have g0 := hg f0 (List.mem_of_getElem? e0)
      have g1 := hg f1 (List.mem_of_getElem? e1)
      obtain ⟨d1, k1, k2, k3⟩ := record_ok hl (L := L) (minLength := minLength) (t := t + 1) g0 g1 hn
      obtain ⟨e, p1, p2⟩ := pairsOf_ok g1.wf g1.some
      obtain ⟨q1, q2⟩ := mem_pops e d1 k2
      refine ⟨e.foldl Dict.pop d1, ?_, q1, fun a b v => ?_⟩
      · unfold stepReform
        rw [k1, ok_bind, p1]
        rfl
      · rw [q2, k3, p2]
        constructor
        · rintro ⟨⟨rfl, hab, b0, b1, hk, l1, l2⟩ | ⟨hnb, hin⟩, hne⟩
          · refine ⟨hab, ⟨f0, f1, by omega, by omega, by rw [Nat.add_sub_cancel]; exact e0, e1, b0, hk⟩, l1, l2, ?_⟩
            intro t' f h1 h2 hf
            have : t' = t + 1 := by omega
            subst this
            rw [e1, Option.some.injEq] at hf
            subst hf
            exact b1
          · obtain ⟨hab, ⟨u0, u1, c1, c2, c3, c4, c5, c6⟩, l1, l2, hall⟩ := (hm a b v).1 hin
            refine ⟨hab, ⟨u0, u1, c1, by omega, c3, c4, c5, c6⟩, l1, l2, ?_⟩
            intro t' f h1 h2 hf hbond
            by_cases ht' : t' < t + 1
            · exact hall t' f h1 ht' hf hbond
            · have : t' = t + 1 := by omega
              subst this
              rw [e1, Option.some.injEq] at hf
              subst hf
              exact hne ⟨hab, hbond⟩
        · rintro ⟨hab, ⟨u0, u1, c1, c2, c3, c4, c5, c6⟩, l1, l2, hall⟩
          have hne : ¬ f1.Bonded a b := hall (t + 1) f1 (by omega) (by omega) e1
          refine ⟨?_, fun h => hne h.2⟩
          by_cases hv : v = t + 1
          · subst hv
            rw [Nat.add_sub_cancel, e0, Option.some.injEq] at c3
            rw [e1, Option.some.injEq] at c4
            subst c3
            subst c4
            exact .inl ⟨rfl, hab, c5, hne, c6, l1, l2⟩
          · refine .inr ⟨?_, (hm a b v).2 ⟨hab, ⟨u0, u1, c1, by omega, c3, c4, c5, c6⟩, l1, l2, fun t' f h1 h2 => hall t' f h1 (by omega)⟩⟩
            rintro ⟨-, b0, -⟩
            exact hall t f0 (by omega) (by omega) e0 b0)
  obtain ⟨r1, r2⟩ := perTime_rows (size := frames.length) h2
  refine ⟨perTime frames.length d, by unfold neverReform; rw [h1]; rfl, r1, fun t row hrow => ?_⟩
  obtain ⟨s1, s2⟩ := r2 t row hrow
  refine ⟨s1, fun a b => ?_⟩
  have ht : t < frames.length := by
    have := (List.getElem?_eq_some_iff.1 hrow).1
    omega
  rw [s2, h3]
  constructor
  · rintro ⟨hab, ⟨u0, u1, c1, c2, c3, c4, c5, c6⟩, l1, l2, hall⟩
    exact ⟨hab, ⟨u0, u1, c1, c3, c4, c5, c6⟩, l1, l2, fun t' f h1 hf => hall t' f h1 (List.getElem?_eq_some_iff.1 hf).1 hf⟩
  · rintro ⟨hab, ⟨u0, u1, c1, c3, c4, c5, c6⟩, l1, l2, hall⟩
    exact ⟨hab, ⟨u0, u1, c1, ht, c3, c4, c5, c6⟩, l1, l2, fun t' f h1 _ hf => hall t' f h1 hf⟩

theorem mem_closer {len : Frame → Nat → Nat → Option Nat} (L : Nat) (f : Frame) (l : List (Nat × Nat)) : ∀ (d : Dict), (d.map (·.1)).Nodup →
    ((l.foldl (fun d x =>
      match shortest len f x with
      | some n => if n ≤ L then Dict.pop d x else d
      | none => d) d).map (·.1)).Nodup
    ∧ ∀ k v, (k, v) ∈ l.foldl (fun d x =>
      match shortest len f x with
      | some n => if n ≤ L then Dict.pop d x else d
      | none => d) d ↔ (k, v) ∈ d ∧ ¬ (k ∈ l ∧ ∃ n, n ≤ L ∧ shortest len f k = some n) := by
  induction l with
  | nil => intro d h; exact ⟨h, by simp⟩
  | cons c l ih =>
    intro d h
    rw [List.foldl_cons]
    by_cases hc : ∃ n, n ≤ L ∧ shortest len f c = some n
    · obtain ⟨n, hn, e⟩ := hc
      simp only [e, if_pos hn]
      obtain ⟨h1, h2⟩ := ih (d.pop c) (pop_nodup h)
      refine ⟨h1, fun k v => ?_⟩
      rw [h2, mem_pop, List.mem_cons]
      by_cases hk : k = c
      · subst hk
        have : ∃ n, n ≤ L ∧ shortest len f k = some n := ⟨n, hn, e⟩
        simp [this]
      · simp [hk]
    · have : (match shortest len f c with
          | some n => if n ≤ L then Dict.pop d c else d
          | none => d) = d := by
        cases e : shortest len f c with
        | none => rfl
        | some n =>
          simp only
          rw [if_neg (fun hn => hc ⟨n, hn, e⟩)]
      rw [this]
      obtain ⟨h1, h2⟩ := ih d h
      refine ⟨h1, fun k v => ?_⟩
      rw [h2, List.mem_cons]
      by_cases hk : k = c
      · subst hk
        simp [hc]
      · simp [hk]

/-- C172. `never_closer` gives for each time, each one once and the smallest trajectory first, the pairs that were bonded at the time before, are at this time at
least `L` bonds apart on the graph, and are not less than `L` bonds apart at any later time. -/
theorem C172_closer_partial {len : Frame → Nat → Nat → Option Nat} (hl : IsShortest len) (lens : List Nat) (L : Nat) (hL : 2 ≤ L) (minLength : Option Nat)
    {frames : List Frame} (h0 : frames ≠ []) (hg : ∀ f ∈ frames, f.Good lens) :
    ∃ rows, neverCloser len lens L minLength 0 frames = .ok rows ∧ rows.length = frames.length
      ∧ ∀ (t : Nat) (row : List (Nat × Nat)), rows[t]? = some row → row.Nodup ∧ ∀ a b, (a, b) ∈ row ↔ a ≤ b ∧
        (∃ f0 f1, 0 < t ∧ frames[t - 1]? = some f0 ∧ frames[t]? = some f1 ∧ f0.Bonded a b ∧ ∃ k, L ≤ k ∧ Dist f1 a b k)
        ∧ Long lens minLength a ∧ Long lens minLength b ∧ ∀ t' f k, t ≤ t' → frames[t']? = some f → Dist f a b k → L ≤ k := by
  obtain ⟨d, h1, h2, h3⟩ := run_inv (step := stepCloser len lens L minLength) (frames := frames)
    (I := fun T d => (d.map (·.1)).Nodup ∧ ∀ a b v, ((a, b), v) ∈ d ↔ a ≤ b ∧
        (∃ f0 f1, 0 < v ∧ v < T ∧ frames[v - 1]? = some f0 ∧ frames[v]? = some f1 ∧ f0.Bonded a b ∧ ∃ k, L ≤ k ∧ Dist f1 a b k)
        ∧ Long lens minLength a ∧ Long lens minLength b ∧ ∀ t' f k, v ≤ t' → t' < T → frames[t']? = some f → Dist f a b k → L ≤ k)
    ⟨by simp, by
      intro a b v
      refine ⟨by simp, ?_⟩
      rintro ⟨-, ⟨f0, f1, hv, hv', -⟩, -⟩
      omega⟩ h0 (by
      intro t f0 f1 d e0 e1 hd
      obtain ⟨hn, hm⟩ := hd
      have g0 := hg f0 (List.mem_of_getElem? e0)
      have g1 := hg f1 (List.mem_of_getElem? e1)
      obtain ⟨d1, k1, k2, k3⟩ := record_ok hl (L := L) (minLength := minLength) (t := t + 1) g0 g1 hn
      obtain ⟨q1, q2⟩ := mem_closer (len := len) L f1 (d1.map (·.1)) d1 k2
      refine ⟨_, by unfold stepCloser; rw [k1, ok_bind]; rfl, q1, fun a b v => ?_⟩
      have hq : ((a, b), v) ∈ d1 ∧ ¬ ((a, b) ∈ d1.map (·.1) ∧ ∃ n, n ≤ L ∧ shortest len f1 (a, b) = some n)
          ↔ ((a, b), v) ∈ d1 ∧ ∀ k, Dist f1 a b k → L ≤ k := by
        refine and_congr_right fun hin => ?_
        have hmem : (a, b) ∈ d1.map (·.1) := List.mem_map.2 ⟨_, hin, rfl⟩
        constructor
        · intro h k hk
          by_contra hlt
          exact h ⟨hmem, k + 1, by omega, (shortest_iff hl f1 a b _).2 ⟨k, rfl, hk⟩⟩
        · rintro h ⟨-, n, hn, hs⟩
          obtain ⟨k, rfl, hk⟩ := (shortest_iff hl f1 a b n).1 hs
          have := h k hk
          omega
      rw [q2, hq, k3]
      constructor
      · rintro ⟨⟨rfl, hab, b0, b1, hk, l1, l2⟩ | ⟨hnb, hin⟩, hne⟩
        · refine ⟨hab, ⟨f0, f1, by omega, by omega, by rw [Nat.add_sub_cancel]; exact e0, e1, b0, hk⟩, l1, l2, ?_⟩
          intro t' f k h1 h2 hf
          have : t' = t + 1 := by omega
          subst this
          rw [e1, Option.some.injEq] at hf
          subst hf
          exact hne k
        · obtain ⟨hab, ⟨u0, u1, c1, c2, c3, c4, c5, c6⟩, l1, l2, hall⟩ := (hm a b v).1 hin
          refine ⟨hab, ⟨u0, u1, c1, by omega, c3, c4, c5, c6⟩, l1, l2, ?_⟩
          intro t' f k h1 h2 hf
          by_cases ht' : t' < t + 1
          · exact hall t' f k h1 ht' hf
          · have : t' = t + 1 := by omega
            subst this
            rw [e1, Option.some.injEq] at hf
            subst hf
            exact hne k
      · rintro ⟨hab, ⟨u0, u1, c1, c2, c3, c4, c5, c6⟩, l1, l2, hall⟩
        have hne : ∀ k, Dist f1 a b k → L ≤ k := fun k => hall (t + 1) f1 k (by omega) (by omega) e1
        refine ⟨?_, hne⟩
        by_cases hv : v = t + 1
        · subst hv
          rw [Nat.add_sub_cancel, e0, Option.some.injEq] at c3
          rw [e1, Option.some.injEq] at c4
          subst c3
          subst c4
          refine .inl ⟨rfl, hab, c5, ?_, c6, l1, l2⟩
          intro hb
          obtain ⟨k, hk, hd⟩ := Bonded.dist hb
          have := hne k hd
          omega
        · refine .inr ⟨?_, (hm a b v).2 ⟨hab, ⟨u0, u1, c1, by omega, c3, c4, c5, c6⟩, l1, l2, fun t' f k h1 h2 => hall t' f k h1 (by omega)⟩⟩
          rintro ⟨-, b0, -⟩
          obtain ⟨k, hk, hd⟩ := Bonded.dist b0
          have := hall t f0 k (by omega) (by omega) e0 hd
          omega)
  obtain ⟨r1, r2⟩ := perTime_rows (size := frames.length) h2
  refine ⟨perTime frames.length d, by unfold neverCloser; rw [h1]; rfl, r1, fun t row hrow => ?_⟩
  obtain ⟨s1, s2⟩ := r2 t row hrow
  refine ⟨s1, fun a b => ?_⟩
  have ht : t < frames.length := by
    have := (List.getElem?_eq_some_iff.1 hrow).1
    omega
  rw [s2, h3]
  constructor
  · rintro ⟨hab, ⟨u0, u1, c1, c2, c3, c4, c5, c6⟩, l1, l2, hall⟩
    exact ⟨hab, ⟨u0, u1, c1, c3, c4, c5, c6⟩, l1, l2, fun t' f k h1 hf => hall t' f k h1 (List.getElem?_eq_some_iff.1 hf).1 hf⟩
  · rintro ⟨hab, ⟨u0, u1, c1, c3, c4, c5, c6⟩, l1, l2, hall⟩
    exact ⟨hab, ⟨u0, u1, c1, ht, c3, c4, c5, c6⟩, l1, l2, fun t' f k h1 _ hf => hall t' f k h1 hf⟩

/-- A triangle that opens: the trajectories 0 and 2 are then two bonds apart. -/
def closed : Frame := ⟨[(0, 1), (1, 2), (0, 2)], [0, 1, 2]⟩
def opened : Frame := ⟨[(0, 1), (1, 2)], [2, 1, 0]⟩

example : ∀ f ∈ [closed, opened, opened], f.Good [3, 3, 3] := by
  intro f hf
  simp only [List.mem_cons, List.not_mem_nil, or_false] at hf
  rcases hf with rfl | rfl | rfl <;> exact ⟨by unfold Frame.WF; decide, by decide, by decide⟩

/-- C172 fails for pairs that are exactly `L` bonds apart: they are given by both functions, though their distance is not larger than `L`. Two bonded trajectories
that are `L` bonds apart at the next, last time are given. -/
theorem C172_equal_counterexample {len : Frame → Nat → Nat → Option Nat} (hl : IsShortest len) (lens : List Nat) (L : Nat) (hL : 2 ≤ L) {f0 f1 : Frame}
    (g0 : f0.Good lens) (g1 : f1.Good lens) {a b : Nat} (hab : a ≤ b) (hb : f0.Bonded a b) (hd : Dist f1 a b L) :
    ∃ rows rows' row row', neverReform len lens L none 0 [f0, f1] = .ok rows ∧ neverCloser len lens L none 0 [f0, f1] = .ok rows'
      ∧ rows[1]? = some row ∧ rows'[1]? = some row' ∧ (a, b) ∈ row ∧ (a, b) ∈ row' := by
  have hg : ∀ f ∈ [f0, f1], f.Good lens := by
    intro f hf
    simp only [List.mem_cons, List.not_mem_nil, or_false] at hf
    rcases hf with rfl | rfl
    · exact g0
    · exact g1
  obtain ⟨rows, h1, h2, h3⟩ := C172_reform_partial hl lens L none (by simp) hg
  obtain ⟨rows', k1, k2, k3⟩ := C172_closer_partial hl lens L hL none (by simp) hg
  have e : rows[1]? = some (rows[1]'(by rw [h2]; simp)) := List.getElem?_eq_getElem _
  have e' : rows'[1]? = some (rows'[1]'(by rw [k2]; simp)) := List.getElem?_eq_getElem _
  refine ⟨rows, rows', _, _, h1, k1, e, e', ?_, ?_⟩
  · rw [(h3 1 _ e).2]
    refine ⟨hab, ⟨f0, f1, by omega, rfl, rfl, hb, L, le_refl _, hd⟩, by simp [Long], by simp [Long], ?_⟩
    intro t' f ht hf hbond
    have : t' = 1 := by
      have := (List.getElem?_eq_some_iff.1 hf).1
      simp at this
      omega
    subst this
    simp only [List.getElem?_cons_succ, List.getElem?_cons_zero, Option.some.injEq] at hf
    subst hf
    obtain ⟨k, hk, hdk⟩ := Bonded.dist hbond
    have := hd.unique hdk
    omega
  · rw [(k3 1 _ e').2]
    refine ⟨hab, ⟨f0, f1, by omega, rfl, rfl, hb, L, le_refl _, hd⟩, by simp [Long], by simp [Long], ?_⟩
    intro t' f k ht hf hdk
    have : t' = 1 := by
      have := (List.getElem?_eq_some_iff.1 hf).1
      simp at this
      omega
    subst this
    simp only [List.getElem?_cons_succ, List.getElem?_cons_zero, Option.some.injEq] at hf
    subst hf
    exact le_of_eq (hd.unique hdk)

/-- The opened triangle meets the hypotheses. -/
theorem opened_dist : Dist opened 0 2 2 := by
  have b21 : ∀ a b, opened.Bonded a b → (a = 1 ∧ b ≠ 1) ∨ (a ≠ 1 ∧ b = 1) := by
    rintro a b ⟨i, j, h, hi, hj⟩
    simp only [opened, List.mem_cons, Prod.mk.injEq, List.not_mem_nil, or_false] at h hi hj
    rcases h with (⟨rfl, rfl⟩ | ⟨rfl, rfl⟩) | (⟨rfl, rfl⟩ | ⟨rfl, rfl⟩) <;> simp at hi hj <;> subst hi <;> subst hj <;> decide
  refine ⟨by decide, by decide, .cons (c := 1) ⟨2, 1, by decide, rfl, rfl⟩ (.cons (c := 2) ⟨1, 0, by decide, rfl, rfl⟩ (.zero 2)), ?_⟩
  intro m hm
  cases hm with
  | cons h w =>
    cases w with
    | zero =>
      rcases b21 _ _ h with ⟨h, -⟩ | ⟨-, h⟩ <;> omega
    | cons _ _ => omega

example : closed.Bonded 0 2 ∧ Dist opened 0 2 2 := ⟨⟨0, 2, by decide, rfl, rfl⟩, opened_dist⟩

/-- C172 fails for pairs that are not connected any more, and so are at an infinite distance: they are not given. -/
theorem C172_apart_counterexample {len : Frame → Nat → Nat → Option Nat} (hl : IsShortest len) (lens : List Nat) (L : Nat) (hL : 2 ≤ L) {frames : List Frame}
    (h0 : frames ≠ []) (hg : ∀ f ∈ frames, f.Good lens) {t : Nat} {f : Frame} (hf : frames[t]? = some f) {a b : Nat} (hd : ∀ k, ¬ Walk f a b k) :
    ∃ rows rows' row row', neverReform len lens L none 0 frames = .ok rows ∧ neverCloser len lens L none 0 frames = .ok rows'
      ∧ rows[t]? = some row ∧ rows'[t]? = some row' ∧ (a, b) ∉ row ∧ (a, b) ∉ row' := by
  obtain ⟨rows, h1, h2, h3⟩ := C172_reform_partial hl lens L none h0 hg
  obtain ⟨rows', k1, k2, k3⟩ := C172_closer_partial hl lens L hL none h0 hg
  have ht := (List.getElem?_eq_some_iff.1 hf).1
  have e : rows[t]? = some (rows[t]'(by omega)) := List.getElem?_eq_getElem _
  have e' : rows'[t]? = some (rows'[t]'(by omega)) := List.getElem?_eq_getElem _
  refine ⟨rows, rows', _, _, h1, k1, e, e', ?_, ?_⟩
  · rw [(h3 t _ e).2]
    rintro ⟨-, ⟨f0, f1, -, -, hf1, -, k, -, hk⟩, -⟩
    rw [hf, Option.some.injEq] at hf1
    subst hf1
    exact hd k hk.2.2.1
  · rw [(k3 t _ e').2]
    rintro ⟨-, ⟨f0, f1, -, -, hf1, -, k, -, hk⟩, -⟩
    rw [hf, Option.some.injEq] at hf1
    subst hf1
    exact hd k hk.2.2.1

/-- A trajectory without bonds is not connected to others. -/
example : ∀ k, ¬ Walk ⟨[(0, 1)], [0, 1, 2]⟩ 2 0 k := by
  intro k h
  cases h with
  | cons h _ =>
    obtain ⟨i, j, h, hi, -⟩ := h
    simp only [List.mem_singleton, Prod.mk.injEq] at h
    rcases h with ⟨rfl, rfl⟩ | ⟨rfl, rfl⟩ <;> simp at hi

/-- C172 fails when one of the times has no bonds and is not the only one: an exception is raised. -/
theorem C172_empty_counterexample (len : Frame → Nat → Nat → Option Nat) (lens : List Nat) (L : Nat) (minLength : Option Nat) {f0 f1 : Frame} (fs : List Frame)
    (w0 : f0.WF) (h : f0.bonds = [] ∨ f1.bonds = []) :
    neverReform len lens L minLength 0 (f0 :: f1 :: fs) = .error .invalidArgument ∧ neverCloser len lens L minLength 0 (f0 :: f1 :: fs) = .error .invalidArgument := by
  have hr : ∀ d t, record len lens L minLength t f0 f1 d = .error .invalidArgument := by
    intro d t
    unfold record brokenPaths
    by_cases hb : f0.bonds = []
    · rw [pairsOf, if_pos hb]
      rfl
    · obtain ⟨e, he, -⟩ := pairsOf_ok w0 hb
      rw [he]
      simp only [ok_bind]
      rw [pairsOf, if_pos (h.resolve_left hb)]
      rfl
  constructor
  · unfold neverReform
    rw [run, if_neg (by omega), run, if_pos (by omega)]
    simp only [stepReform, hr, error_bind]
  · unfold neverCloser
    rw [run, if_neg (by omega), run, if_pos (by omega)]
    simp only [stepCloser, hr, error_bind]

example : opened.WF ∧ (⟨[], [0]⟩ : Frame).bonds = [] := ⟨by unfold Frame.WF; decide, rfl⟩

/-- C172 fails when the first time of the experiment is not 0: an exception is raised, as the bonds of the time before are not defined. -/
theorem C172_offset_counterexample (len : Frame → Nat → Nat → Option Nat) (lens : List Nat) (L : Nat) (minLength : Option Nat) (offset : Nat) (ho : 0 < offset)
    (f : Frame) (fs : List Frame) :
    neverReform len lens L minLength offset (f :: fs) = .error .logicError ∧ neverCloser len lens L minLength offset (f :: fs) = .error .logicError := by
  constructor
  · unfold neverReform
    rw [run, if_pos ho]
    rfl
  · unfold neverCloser
    rw [run, if_pos ho]
    rfl

end Broken
end Py
end Colloids
