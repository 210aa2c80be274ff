import Verif.Py.BrokenModel
import Verif.Py.BondsProps
import Verif.Py.ExperimentLoadProps
import Verif.Py.TxpModel

/-! # Broken bonds in python (C171) -/

namespace Colloids
namespace Py
namespace Broken
open Average (idx_some)
open TreeIndex (mapM_ok_of)

/-- The bonds of a frame are between positions of the frame. -/
def Frame.WF (f : Frame) : Prop := ∀ x ∈ f.bonds, x.1 < f.p2tr.length ∧ x.2 < f.p2tr.length

/-- Two trajectories are bonded: there is a bond, in one order or the other, between a position of each of them. -/
def Frame.Bonded (f : Frame) (a b : Nat) : Prop :=
  ∃ i j, ((i, j) ∈ f.bonds ∨ (j, i) ∈ f.bonds) ∧ f.p2tr[i]? = some a ∧ f.p2tr[j]? = some b

theorem Frame.Bonded.symm {f : Frame} {a b : Nat} (h : f.Bonded a b) : f.Bonded b a := by
  obtain ⟨i, j, h1, h2, h3⟩ := h
  exact ⟨j, i, h1.symm, h3, h2⟩

theorem Frame.Bonded.mem {f : Frame} {a b : Nat} (h : f.Bonded a b) : a ∈ f.p2tr ∧ b ∈ f.p2tr := by
  obtain ⟨i, j, -, h2, h3⟩ := h
  exact ⟨List.mem_of_getElem? h2, List.mem_of_getElem? h3⟩

/-- The pair of trajectories of a pair of positions. -/
def Frame.pair (f : Frame) (x : Nat × Nat) : Nat × Nat := (f.p2tr.getD x.1 0, f.p2tr.getD x.2 0)

theorem getD_of_lt {l : List Nat} {i : Nat} (h : i < l.length) : l[i]? = some (l.getD i 0) := by
  rw [List.getD_eq_getElem?_getD, List.getElem?_eq_getElem h, Option.getD_some]

theorem translate_ok {f : Frame} (h : f.WF) : translate f = .ok (f.bonds.map f.pair) := by
  unfold translate
  refine mapM_ok_of _ _ _ fun x hx => ?_
  rw [idx_some (getD_of_lt (h x hx).1), ok_bind, idx_some (getD_of_lt (h x hx).2), ok_bind]
  rfl

theorem sortPair_le (x : Nat × Nat) : (sortPair x).1 ≤ (sortPair x).2 := by
  unfold sortPair
  exact le_trans (min_le_left _ _) (le_max_left _ _)

theorem sortPair_eq {x : Nat × Nat} {a b : Nat} (hab : a ≤ b) : sortPair x = (a, b) ↔ x = (a, b) ∨ x = (b, a) := by
  obtain ⟨u, v⟩ := x
  simp only [sortPair, Prod.mk.injEq]
  omega

/-- The sorted pairs of a frame. -/
theorem mem_pairs {f : Frame} (h : f.WF) {a b : Nat} : (a, b) ∈ (f.bonds.map f.pair).map sortPair ↔ a ≤ b ∧ f.Bonded a b := by
  rw [List.map_map, List.mem_map]
  constructor
  · rintro ⟨x, hx, e⟩
    have hab : a ≤ b := by
      have := sortPair_le (f.pair x)
      rw [show sortPair (f.pair x) = (a, b) from e] at this
      exact this
    refine ⟨hab, ?_⟩
    have h1 := getD_of_lt (h x hx).1
    have h2 := getD_of_lt (h x hx).2
    rcases (sortPair_eq hab).1 e with e | e
    · rw [Frame.pair, Prod.mk.injEq] at e
      exact ⟨x.1, x.2, .inl hx, h1.trans (congrArg some e.1), h2.trans (congrArg some e.2)⟩
    · rw [Frame.pair, Prod.mk.injEq] at e
      exact ⟨x.2, x.1, .inr hx, h2.trans (congrArg some e.2), h1.trans (congrArg some e.1)⟩
  · rintro ⟨hab, i, j, hb, hi, hj⟩
    have gi : f.p2tr.getD i 0 = a := by rw [List.getD_eq_getElem?_getD, hi]; rfl
    have gj : f.p2tr.getD j 0 = b := by rw [List.getD_eq_getElem?_getD, hj]; rfl
    rcases hb with hb | hb
    · exact ⟨(i, j), hb, (sortPair_eq hab).2 (.inl (by rw [Frame.pair, gi, gj]))⟩
    · exact ⟨(j, i), hb, (sortPair_eq hab).2 (.inr (by rw [Frame.pair, gi, gj]))⟩

theorem existing_fold {n : Nat} : ∀ (l : List Nat) (e : List Bool), (∀ v ∈ l, v < n) → e.length = n →
    ∃ e', l.foldlM (fun e v => upd e v fun _ => true) e = .ok e' ∧ e'.length = n ∧ ∀ v, v < n → e'[v]? = some (e.getD v false || decide (v ∈ l)) := by
  intro l
  induction l with
  | nil =>
    intro e _ he
    refine ⟨e, rfl, he, fun v hv => ?_⟩
    rw [List.getD_eq_getElem?_getD, List.getElem?_eq_getElem (by omega)]
    simp
  | cons c l ih =>
    intro e hl he
    have hc := hl c (by simp)
    obtain ⟨e', h1, h2, h3⟩ := ih (e.modify c fun _ => true) (fun v hv => hl v (by simp [hv])) (by simp [he])
    refine ⟨e', ?_, h2, fun v hv => ?_⟩
    · rw [List.foldlM_cons, upd, if_pos (by omega), ok_bind]
      exact h1
    · rw [h3 v hv]
      congr 1
      rw [List.getD_eq_getElem?_getD, List.getD_eq_getElem?_getD, List.getElem?_modify]
      by_cases hcv : c = v
      · subst hcv
        rw [List.getElem?_eq_getElem (by omega)]
        simp
      · have : (v ∈ c :: l) ↔ v ∈ l := by
          rw [List.mem_cons]
          exact or_iff_right (fun h => hcv h.symm)
        simp [this, hcv]

theorem existing_ok {n : Nat} {l : List Nat} (h : ∀ v ∈ l, v < n) :
    ∃ e, existing n l = .ok e ∧ e.length = n ∧ ∀ v, v < n → e[v]? = some (decide (v ∈ l)) := by
  obtain ⟨e, h1, h2, h3⟩ := existing_fold l (List.replicate n false) h (by simp)
  refine ⟨e, h1, h2, fun v hv => ?_⟩
  rw [h3 v hv, List.getD_eq_getElem?_getD, List.getElem?_replicate, if_pos hv]
  simp

theorem restrict_ok {n : Nat} {l0 l1 : List Nat} {e0 e1 : List Bool} (h0 : ∀ v, v < n → e0[v]? = some (decide (v ∈ l0)))
    (h1 : ∀ v, v < n → e1[v]? = some (decide (v ∈ l1))) {gb : List (Nat × Nat)} (hne : gb ≠ []) (hg : ∀ x ∈ gb, x.1 < n ∧ x.2 < n) :
    restrict e0 e1 gb = .ok ((gb.filter fun x => decide ((x.1 ∈ l0 ∧ x.1 ∈ l1) ∧ x.2 ∈ l0 ∧ x.2 ∈ l1)).map sortPair) := by
  unfold restrict
  rw [if_neg hne, mapM_ok_of _ (fun x => (decide ((x.1 ∈ l0 ∧ x.1 ∈ l1) ∧ x.2 ∈ l0 ∧ x.2 ∈ l1), x)) gb, ok_bind, pure_eq_ok]
  · congr 1
    rw [List.filter_map, List.map_map]
    rfl
  · intro x hx
    obtain ⟨g1, g2⟩ := hg x hx
    rw [idx_some (h0 _ g1), ok_bind, idx_some (h1 _ g1), ok_bind, idx_some (h0 _ g2), ok_bind, idx_some (h1 _ g2), ok_bind, pure_eq_ok]
    simp only [Bool.decide_and]

/-- C171. `broken_bonds` gives the pairs of trajectories, the smallest first and each one once, that are bonded at the first time, both exist at the
second time, and are not bonded then. -/
theorem C171_broken {f0 f1 : Frame} (w0 : f0.WF) (w1 : f1.WF) (b0 : f0.bonds ≠ []) (b1 : f1.bonds ≠ []) :
    ∃ l, brokenBonds f0 f1 = .ok l ∧ l.Nodup ∧
      ∀ a b, (a, b) ∈ l ↔ a ≤ b ∧ f0.Bonded a b ∧ a ∈ f1.p2tr ∧ b ∈ f1.p2tr ∧ ¬ f1.Bonded a b := by
  have hp : ∀ {f : Frame}, f.WF → f.bonds ≠ [] → f.p2tr ≠ [] := by
    intro f w b hn
    obtain ⟨x, hx⟩ := List.exists_mem_of_ne_nil _ b
    have := (w x hx).1
    rw [hn] at this
    exact absurd this (Nat.not_lt_zero _)
  set n := max (f0.p2tr.foldl max 0) (f1.p2tr.foldl max 0) + 1 with hn
  have m0 : ∀ v ∈ f0.p2tr, v < n := fun v hv => by
    have := (Bonds.foldl_max f0.p2tr).1 v hv
    omega
  have m1 : ∀ v ∈ f1.p2tr, v < n := fun v hv => by
    have := (Bonds.foldl_max f1.p2tr).1 v hv
    omega
  obtain ⟨e0, h0, -, g0⟩ := existing_ok m0
  obtain ⟨e1, h1, -, g1⟩ := existing_ok m1
  have hpair : ∀ {f : Frame}, f.WF → ∀ x ∈ f.bonds.map f.pair, x.1 ∈ f.p2tr ∧ x.2 ∈ f.p2tr := by
    intro f w x hx
    obtain ⟨y, hy, rfl⟩ := List.mem_map.1 hx
    exact ⟨List.mem_of_getElem? (getD_of_lt (w y hy).1), List.mem_of_getElem? (getD_of_lt (w y hy).2)⟩
  have r0 := restrict_ok g0 g1 (gb := f0.bonds.map f0.pair) (by simpa using b0) fun x hx =>
    ⟨m0 _ (hpair w0 x hx).1, m0 _ (hpair w0 x hx).2⟩
  have r1 := restrict_ok g0 g1 (gb := f1.bonds.map f1.pair) (by simpa using b1) fun x hx =>
    ⟨m1 _ (hpair w1 x hx).1, m1 _ (hpair w1 x hx).2⟩
  have hmem : ∀ {f : Frame}, f.WF → ∀ a b, (a, b) ∈ ((f.bonds.map f.pair).filter fun x =>
      decide ((x.1 ∈ f0.p2tr ∧ x.1 ∈ f1.p2tr) ∧ x.2 ∈ f0.p2tr ∧ x.2 ∈ f1.p2tr)).map sortPair
      ↔ (a ≤ b ∧ f.Bonded a b) ∧ (a ∈ f0.p2tr ∧ a ∈ f1.p2tr) ∧ b ∈ f0.p2tr ∧ b ∈ f1.p2tr := by
    intro f w a b
    rw [← mem_pairs w]
    simp only [List.mem_map (f := sortPair), List.mem_filter, decide_eq_true_eq]
    constructor
    · rintro ⟨x, ⟨hx, hc⟩, e⟩
      refine ⟨⟨x, hx, e⟩, ?_⟩
      have hab := sortPair_le x
      rw [e] at hab
      rcases (sortPair_eq hab).1 e with rfl | rfl
      · exact hc
      · exact ⟨hc.2, hc.1⟩
    · rintro ⟨⟨x, hx, e⟩, hc⟩
      have hab := sortPair_le x
      rw [e] at hab
      refine ⟨x, ⟨hx, ?_⟩, e⟩
      rcases (sortPair_eq hab).1 e with rfl | rfl
      · exact hc
      · exact ⟨hc.2, hc.1⟩
  unfold brokenBonds
  rw [if_neg (by rintro (h | h) <;> [exact hp w0 b0 h; exact hp w1 b1 h])]
  simp only [← hn]
  rw [h0, ok_bind, h1, ok_bind, translate_ok w0, ok_bind, translate_ok w1, ok_bind, r0, ok_bind, r1, ok_bind]
  refine ⟨_, rfl, List.nodup_dedup _, fun a b => ?_⟩
  rw [List.mem_dedup, List.mem_filter, decide_eq_true_eq, hmem w0, hmem w1]
  constructor
  · rintro ⟨⟨⟨hab, hb⟩, ha, hb'⟩, hn⟩
    exact ⟨hab, hb, ha.2, hb'.2, fun h => hn ⟨⟨hab, h⟩, ha, hb'⟩⟩
  · rintro ⟨hab, hb, ha, hb', hn⟩
    obtain ⟨ma, mb⟩ := hb.mem
    exact ⟨⟨⟨hab, hb⟩, ⟨ma, ha⟩, mb, hb'⟩, fun h => hn h.1.2⟩

/-- Three particles in a chain, then the particle of the trajectory 2 moves and the positions are in another order. -/
def before : Frame := ⟨[(0, 1), (1, 2)], [0, 1, 2]⟩
def after : Frame := ⟨[(1, 2), (0, 3)], [2, 1, 0, 3]⟩

example : before.WF ∧ after.WF ∧ before.bonds ≠ [] ∧ after.bonds ≠ [] := by
  refine ⟨?_, ?_, by decide, by decide⟩ <;> (unfold Frame.WF; decide)

example : brokenBonds before after = .ok [(1, 2)] := by decide +kernel

/-- C171 fails when one of the two times has no bonds: then all the bonds (or none) of the first time that have their members are broken, but an
exception is raised. -/
theorem C171_none_counterexample (f0 f1 : Frame) (w0 : f0.WF) (w1 : f1.WF) (h : f0.bonds = [] ∨ f1.bonds = []) :
    brokenBonds f0 f1 = .error .invalidArgument := by
  unfold brokenBonds
  split
  · rfl
  · rename_i hne
    rw [not_or] at hne
    simp only
    set n := max (f0.p2tr.foldl max 0) (f1.p2tr.foldl max 0) + 1 with hn
    have m0 : ∀ v ∈ f0.p2tr, v < n := fun v hv => by
      have := (Bonds.foldl_max f0.p2tr).1 v hv
      omega
    have m1 : ∀ v ∈ f1.p2tr, v < n := fun v hv => by
      have := (Bonds.foldl_max f1.p2tr).1 v hv
      omega
    obtain ⟨e0, h0, -, g0⟩ := existing_ok m0
    obtain ⟨e1, h1, -, g1⟩ := existing_ok m1
    have hpair : ∀ {f : Frame}, f.WF → ∀ x ∈ f.bonds.map f.pair, x.1 ∈ f.p2tr ∧ x.2 ∈ f.p2tr := by
      intro f w x hx
      obtain ⟨y, hy, rfl⟩ := List.mem_map.1 hx
      exact ⟨List.mem_of_getElem? (getD_of_lt (w y hy).1), List.mem_of_getElem? (getD_of_lt (w y hy).2)⟩
    rw [h0, ok_bind, h1, ok_bind, translate_ok w0, ok_bind, translate_ok w1, ok_bind]
    by_cases hb : f0.bonds = []
    · rw [hb, List.map_nil]
      rfl
    · have hb1 : f1.bonds = [] := h.resolve_left hb
      rw [restrict_ok g0 g1 (gb := f0.bonds.map f0.pair) (by simpa using hb) fun x hx => ⟨m0 _ (hpair w0 x hx).1, m0 _ (hpair w0 x hx).2⟩,
        ok_bind, hb1, List.map_nil]
      rfl

example : before.WF ∧ (⟨[], [0, 1, 2]⟩ : Frame).WF := ⟨by unfold Frame.WF; decide, by simp [Frame.WF]⟩

/-! ## Bonds between the trajectories of a window -/

theorem fill_fold {n t : Nat} : ∀ (l : List (List Nat)) (k : Nat) (m : List (Option Nat)), (∀ tr ∈ l, ∃ p, tr[t]? = some p ∧ p < n) → m.length = n →
    l.Pairwise (fun u v => u[t]? ≠ v[t]?) →
    ∃ m', (l.zipIdx k).foldlM (fun m x => do
        let p ← idx x.1 t
        upd m p fun _ => some x.2) m = .ok m' ∧ m'.length = n
      ∧ (∀ (i : Nat) (tr : List Nat) (p : Nat), l[i]? = some tr → tr[t]? = some p → m'[p]? = some (some (k + i)))
      ∧ ∀ p, (∀ tr ∈ l, tr[t]? ≠ some p) → m'[p]? = m[p]? := by
  intro l
  induction l with
  | nil =>
    intro k m _ hm _
    exact ⟨m, rfl, hm, by simp, fun _ _ => rfl⟩
  | cons c l ih =>
    intro k m hl hm hd
    obtain ⟨hc, hd⟩ := List.pairwise_cons.1 hd
    obtain ⟨p, hp, hpn⟩ := hl c (by simp)
    obtain ⟨m', h1, h2, h3, h4⟩ := ih (k + 1) (m.modify p fun _ => some k) (fun tr htr => hl tr (by simp [htr])) (by simp [hm]) hd
    refine ⟨m', ?_, h2, ?_, ?_⟩
    · rw [List.zipIdx_cons, List.foldlM_cons, idx_some hp, ok_bind, upd, if_pos (by omega), ok_bind]
      exact h1
    · intro i tr q hi hq
      cases i with
      | zero =>
        rw [List.getElem?_cons_zero, Option.some.injEq] at hi
        subst hi
        rw [hp, Option.some.injEq] at hq
        subst hq
        rw [h4 p fun tr htr he => hc tr htr (by rw [hp, he]), List.getElem?_modify, List.getElem?_eq_getElem (by omega)]
        simp
      | succ i =>
        rw [List.getElem?_cons_succ] at hi
        rw [h3 i tr q hi hq]
        congr 2
        omega
    · intro q hq
      rw [h4 q fun tr htr => hq tr (by simp [htr]), List.getElem?_modify]
      have : p ≠ q := fun e => hq c (by simp) (by rw [hp, e])
      simp [this]

theorem fill_ok {n t : Nat} {trajs : List (List Nat)} (h : ∀ tr ∈ trajs, ∃ p, tr[t]? = some p ∧ p < n)
    (hd : trajs.Pairwise fun u v => u[t]? ≠ v[t]?) :
    ∃ m, fillTrajs n trajs t = .ok m ∧ m.length = n
      ∧ (∀ (i : Nat) (tr : List Nat) (p : Nat), trajs[i]? = some tr → tr[t]? = some p → m[p]? = some (some i))
      ∧ ∀ p, p < n → (∀ tr ∈ trajs, tr[t]? ≠ some p) → m[p]? = some none := by
  obtain ⟨m, h1, h2, h3, h4⟩ := fill_fold trajs 0 (List.replicate n none) h (by simp) hd
  refine ⟨m, h1, h2, fun i tr p hi hp => ?_, fun p hp hn => ?_⟩
  · rw [h3 i tr p hi hp, Nat.zero_add]
  · rw [h4 p hn, List.getElem?_replicate, if_pos hp]

/-- Two trajectories of the window are bonded at a time: there is a bond, in one order or the other, between their positions. -/
def WindowBond (trajs : List (List Nat)) (bonds : List (Nat × Nat)) (t a b : Nat) : Prop :=
  ∃ u v p q, trajs[a]? = some u ∧ trajs[b]? = some v ∧ u[t]? = some p ∧ v[t]? = some q ∧ ((p, q) ∈ bonds ∨ (q, p) ∈ bonds)

theorem lexLe_trans (x y z : Nat × Nat) (h : lexLe x y = true) (h' : lexLe y z = true) : lexLe x z = true := by
  simp only [lexLe, decide_eq_true_eq] at *
  omega

theorem lexLe_total (x y : Nat × Nat) : (lexLe x y || lexLe y x) = true := by
  simp only [lexLe, Bool.or_eq_true, decide_eq_true_eq]
  omega

/-- C171. `load_bonds` gives the bonds between the trajectories of the window, in lexicographic order and the smallest trajectory first, when the particles
of all the trajectories have indices not larger than that of a particle that has a bond, and there are several bonds. -/
theorem C171_window_partial {trajs : List (List Nat)} {bonds : List (Nat × Nat)} {t : Nat} (h2 : 2 ≤ bonds.length)
    (ht : ∀ tr ∈ trajs, ∃ p, tr[t]? = some p ∧ ∃ x ∈ bonds, p ≤ x.1 ∨ p ≤ x.2) (hd : trajs.Pairwise fun u v => u[t]? ≠ v[t]?) :
    ∃ l, loadBonds trajs bonds t = .ok l
      ∧ l.Pairwise (fun x y => x.1 < y.1 ∨ (x.1 = y.1 ∧ x.2 ≤ y.2)) ∧ ∀ a b, (a, b) ∈ l ↔ a ≤ b ∧ WindowBond trajs bonds t a b := by
  have hne : bonds ≠ [] := by
    intro h
    rw [h] at h2
    simp at h2
  set n := (bonds.flatMap fun x => [x.1, x.2]).foldl max 0 + 1 with hn
  have hb : ∀ x ∈ bonds, x.1 < n ∧ x.2 < n := by
    intro x hx
    have h1 := (Bonds.foldl_max (bonds.flatMap fun x => [x.1, x.2])).1 x.1 (List.mem_flatMap.2 ⟨x, hx, by simp⟩)
    have h2 := (Bonds.foldl_max (bonds.flatMap fun x => [x.1, x.2])).1 x.2 (List.mem_flatMap.2 ⟨x, hx, by simp⟩)
    omega
  obtain ⟨m, f1, f2, f3, f4⟩ := fill_ok (n := n) (fun tr htr => by
    obtain ⟨p, hp, x, hx, hle⟩ := ht tr htr
    have := hb x hx
    exact ⟨p, hp, by omega⟩) hd
  have fm : ∀ p i : Nat, m[p]? = some (some i) ↔ ∃ u, trajs[i]? = some u ∧ u[t]? = some p := by
    intro p i
    constructor
    · intro h
      have hp : p < n := by
        have := (List.getElem?_eq_some_iff.1 h).1
        omega
      by_cases hex : ∃ tr ∈ trajs, tr[t]? = some p
      · obtain ⟨tr, htr, e⟩ := hex
        obtain ⟨j, hj⟩ := List.getElem?_of_mem htr
        have := f3 j tr p hj e
        rw [h, Option.some.injEq, Option.some.injEq] at this
        exact ⟨tr, this ▸ hj, e⟩
      · have := f4 p hp fun tr htr e => hex ⟨tr, htr, e⟩
        rw [h] at this
        exact absurd this (by simp)
    · rintro ⟨u, hu, e⟩
      exact f3 i u p hu e
  have gm : ∀ p : Nat, p < n → m[p]? = some (m.getD p none) := fun p hp => by
    rw [List.getD_eq_getElem?_getD, List.getElem?_eq_getElem (by omega), Option.getD_some]
  unfold loadBonds
  rw [if_neg hne]
  simp only [← hn]
  rw [f1, ok_bind, mapM_ok_of _ (fun x : Nat × Nat => (m.getD x.1 none, m.getD x.2 none)) bonds, ok_bind, if_neg (by omega)]
  · refine ⟨_, rfl, ?_, fun a b => ?_⟩
    · refine (List.pairwise_mergeSort lexLe_trans lexLe_total _).imp fun {x y} h => ?_
      simpa [lexLe] using h
    · rw [List.mem_mergeSort, List.mem_filterMap]
      constructor
      · rintro ⟨y, hy, e⟩
        obtain ⟨x, hx, rfl⟩ := List.mem_map.1 hy
        have g1 := gm x.1 (hb x hx).1
        have g2 := gm x.2 (hb x hx).2
        cases e1 : m.getD x.1 none with
        | none => rw [e1] at e; simp at e
        | some i =>
          cases e2 : m.getD x.2 none with
          | none => rw [e1, e2] at e; simp at e
          | some j =>
            rw [e1, e2] at e
            simp only [Option.some.injEq] at e
            have hab : a ≤ b := by
              have := sortPair_le (i, j)
              rw [e] at this
              exact this
            rw [e1] at g1
            rw [e2] at g2
            obtain ⟨u, hu, eu⟩ := (fm _ _).1 g1
            obtain ⟨v, hv, ev⟩ := (fm _ _).1 g2
            refine ⟨hab, ?_⟩
            rcases (sortPair_eq hab).1 e with e | e
            · rw [Prod.mk.injEq] at e
              exact ⟨u, v, x.1, x.2, e.1 ▸ hu, e.2 ▸ hv, eu, ev, .inl hx⟩
            · rw [Prod.mk.injEq] at e
              exact ⟨v, u, x.2, x.1, e.2 ▸ hv, e.1 ▸ hu, ev, eu, .inr hx⟩
      · rintro ⟨hab, u, v, p, q, hu, hv, eu, ev, hx⟩
        have g1 : m.getD p none = some a := by rw [List.getD_eq_getElem?_getD, (fm p a).2 ⟨u, hu, eu⟩]; rfl
        have g2 : m.getD q none = some b := by rw [List.getD_eq_getElem?_getD, (fm q b).2 ⟨v, hv, ev⟩]; rfl
        rcases hx with hx | hx
        · refine ⟨(m.getD p none, m.getD q none), List.mem_map.2 ⟨(p, q), hx, rfl⟩, ?_⟩
          rw [g1, g2]
          exact congrArg some ((sortPair_eq hab).2 (.inl rfl))
        · refine ⟨(m.getD q none, m.getD p none), List.mem_map.2 ⟨(q, p), hx, rfl⟩, ?_⟩
          rw [g1, g2]
          exact congrArg some ((sortPair_eq hab).2 (.inr rfl))
  · intro x hx
    rw [idx_some (gm _ (hb x hx).1), ok_bind, idx_some (gm _ (hb x hx).2), ok_bind]
    rfl

example : 2 ≤ [(0, 1), (1, 2)].length ∧ (∀ tr ∈ [[2, 0], [1, 1]], ∃ p, tr[0]? = some p ∧ ∃ x ∈ [(0, 1), (1, 2)], p ≤ x.1 ∨ p ≤ x.2)
    ∧ [[2, 0], [1, 1]].Pairwise (fun u v => u[0]? ≠ v[0]?) := by
  refine ⟨by decide, ?_, by decide⟩
  intro tr htr
  rcases List.mem_cons.1 htr with rfl | htr
  · exact ⟨2, rfl, (1, 2), by decide, by decide⟩
  · rw [List.mem_singleton] at htr
    subst htr
    exact ⟨1, rfl, (1, 2), by decide, by decide⟩

/-- C171 fails when the particle of a trajectory has an index larger than those of all the particles that have bonds, for example when the last particle of
the file has no bond: an exception is raised. -/
theorem C171_isolated_counterexample {trajs : List (List Nat)} {bonds : List (Nat × Nat)} {t : Nat} (hne : bonds ≠ [])
    {tr : List Nat} (htr : tr ∈ trajs) {p : Nat} (hp : tr[t]? = some p) (hl : ∀ x ∈ bonds, x.1 < p ∧ x.2 < p) :
    loadBonds trajs bonds t = .error .outOfRange := by
  unfold loadBonds
  rw [if_neg hne]
  set n := (bonds.flatMap fun x => [x.1, x.2]).foldl max 0 + 1 with hn
  have hnp : n ≤ p := by
    have hne' : (bonds.flatMap fun x => [x.1, x.2]) ≠ [] := by
      obtain ⟨x, hx⟩ := List.exists_mem_of_ne_nil _ hne
      intro h
      have : x.1 ∈ bonds.flatMap fun x => [x.1, x.2] := List.mem_flatMap.2 ⟨x, hx, by simp⟩
      rw [h] at this
      simp at this
    have hm := (Bonds.foldl_max (bonds.flatMap fun x => [x.1, x.2])).2 hne'
    obtain ⟨x, hx, e⟩ := List.mem_flatMap.1 hm
    have := hl x hx
    simp only [List.mem_cons, List.not_mem_nil, or_false] at e
    omega
  have hf : fillTrajs n trajs t = .error .outOfRange := by
    unfold fillTrajs
    obtain ⟨i, hi⟩ := List.getElem?_of_mem htr
    refine Exp.fold_fails _ (fun m => m.length = n) .outOfRange ?_ ?_ _ (tr, i) (List.mem_zipIdx_iff_getElem?.2 hi) ?_ _ (by simp)
    · intro m x m' hm h
      obtain ⟨q, -, h⟩ := bind_ok.1 h
      rw [(Bonds.upd_length h).2, hm]
    · intro m x e _ h
      unfold idx upd at h
      cases hq : x.1[t]? with
      | none => rw [hq] at h; cases h; rfl
      | some q =>
        rw [hq] at h
        simp only [ok_bind] at h
        split_ifs at h
        cases h
        rfl
    · intro m hm
      rw [idx_some hp, ok_bind, upd, if_neg (by omega)]
  simp only [hf]
  rfl

example : loadBonds [[2, 0], [1, 1]] [(0, 1), (1, 0)] 0 = .error .outOfRange := by decide +kernel

/-- C171 fails for a file of a single bond. -/
theorem C171_single_counterexample {trajs : List (List Nat)} {t : Nat} (x : Nat × Nat) (l : List (Nat × Nat)) : loadBonds trajs [x] t ≠ .ok l := by
  intro h
  unfold loadBonds at h
  rw [if_neg (by simp)] at h
  obtain ⟨m, -, h⟩ := bind_ok.1 h
  obtain ⟨m', -, h⟩ := bind_ok.1 h
  cases h

/-- C171 fails for a window that does not begin at the time 0: the bonds of the file of the time `t` are translated with the positions at the time `start + t`.
Here a window of the times 1 and 2. The trajectories 0 and 1 are at the particles 0 and 1 at the time 1, when these particles are bonded, but their bond is
not given. -/
theorem C171_start_counterexample : ∃ (trajs : List (Nat × List Nat)) (bonds : List (Nat × Nat)) (l : List (Nat × Nat)),
    Exp.At trajs 1 0 0 ∧ Exp.At trajs 1 1 1 ∧ (0, 1) ∈ bonds ∧ loadBonds (Txp.readTrajs 1 2 trajs) bonds 1 = .ok l ∧ (0, 1) ∉ l := by
  obtain ⟨l, h1, -, h2⟩ := C171_window_partial (trajs := [[0, 2], [1, 3], [2, 0], [3, 1]]) (bonds := [(0, 1), (1, 3)]) (t := 1) (by decide)
    (by
      intro tr htr
      simp only [List.mem_cons, List.not_mem_nil, or_false] at htr
      rcases htr with rfl | rfl | rfl | rfl
      · exact ⟨2, rfl, (1, 3), by decide, by decide⟩
      · exact ⟨3, rfl, (1, 3), by decide, by decide⟩
      · exact ⟨0, rfl, (1, 3), by decide, by decide⟩
      · exact ⟨1, rfl, (1, 3), by decide, by decide⟩)
    (by decide)
  refine ⟨[(0, [0, 0, 2]), (0, [1, 1, 3]), (0, [2, 2, 0]), (0, [3, 3, 1])], [(0, 1), (1, 3)], l, ⟨(0, [0, 0, 2]), 1, rfl, rfl, rfl⟩,
    ⟨(0, [1, 1, 3]), 1, rfl, rfl, rfl⟩, by decide, ?_, ?_⟩
  · have : Txp.readTrajs 1 2 [(0, [0, 0, 2]), (0, [1, 1, 3]), (0, [2, 2, 0]), (0, [3, 3, 1])] = [[0, 2], [1, 3], [2, 0], [3, 1]] := by decide +kernel
    rw [this]
    exact h1
  · rw [h2]
    rintro ⟨-, u, v, p, q, hu, hv, hp, hq, hb⟩
    simp only [List.getElem?_cons_zero, List.getElem?_cons_succ, Option.some.injEq] at hu hv
    subst hu
    subst hv
    simp only [List.getElem?_cons_zero, List.getElem?_cons_succ, Option.some.injEq] at hp hq
    subst hp
    subst hq
    revert hb
    decide

end Broken
end Py
end Colloids
