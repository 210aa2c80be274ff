import Mathlib.Logic.Relation
import Mathlib.Data.List.Perm.Basic
import Mathlib.Data.List.Nodup
import Verif.CommonLemmas
import Verif.Index.Lemmas
import Verif.Py.FollowModel
import Verif.Py.BondsProps
import Verif.Py.LinkerUpdate

/-!
# Clusters of trajectories
-/

namespace Colloids
namespace Py
namespace Follow

theorem foldl_max_le (l : List Nat) (a : Nat) : a ≤ l.foldl max a ∧ ∀ x ∈ l, x ≤ l.foldl max a := by
  induction l generalizing a with
  | nil => simp
  | cons b l ih =>
    rw [List.foldl_cons]
    obtain ⟨h1, h2⟩ := ih (max a b)
    refine ⟨by omega, ?_⟩
    intro x hx
    rcases List.mem_cons.1 hx with rfl | hx
    · omega
    · exact h2 x hx

theorem maxBond_le (bonds : List (Nat × Nat)) : ∀ x ∈ bonds, x.1 ≤ maxBond bonds ∧ x.2 ≤ maxBond bonds := by
  intro x hx
  have := (foldl_max_le (bonds.map fun x => max x.1 x.2) 0).2 _ (List.mem_map.2 ⟨x, hx, rfl⟩)
  unfold maxBond
  omega

/-- **C214** The graph of `Txp.get_clusters` has the bonds of the file of which both ends are on trajectories declared as nodes, and only these. -/
theorem C214_bonds_partial (bonds : List (Nat × Nat)) (h2 : 2 ≤ bonds.length) (tr : Nat → Nat) (isNode : List Bool)
    (hinj : ∀ a b, isNode.getD a false = true → isNode.getD b false = true → tr a = tr b → a = b)
    (hmax : ∀ a, isNode.getD a false = true → ∃ x ∈ bonds, tr a ≤ x.1 ∨ tr a ≤ x.2) :
    ∃ out, trajBonds bonds tr isNode = .ok out ∧ ∀ a b, (a, b) ∈ out ↔ isNode.getD a false = true ∧ isNode.getD b false = true ∧ (tr a, tr b) ∈ bonds := by
  have hnode : ∀ a, a ∈ (List.range isNode.length).filter (fun i => isNode.getD i false) ↔ isNode.getD a false = true := by
    intro a
    rw [List.mem_filter, List.mem_range]
    constructor
    · exact fun h => h.2
    · intro h
      refine ⟨?_, h⟩
      by_contra hc
      rw [List.getD_eq_getElem?_getD, List.getElem?_eq_none (by omega)] at h
      cases h
  obtain ⟨r, r1, r2, r3, r4⟩ := Linker.upd_fold tr (fun i (_ : Option Nat) => some i) ((List.range isNode.length).filter fun i => isNode.getD i false)
    (List.replicate (maxBond bonds + 1) none)
    (by
      rw [List.nodup_map_iff_inj_on (List.Nodup.filter _ List.nodup_range)]
      intro a ha b hb
      exact hinj a b ((hnode a).1 ha) ((hnode b).1 hb))
    (by
      intro a ha
      obtain ⟨x, hx, hle⟩ := hmax a ((hnode a).1 ha)
      obtain ⟨m1, m2⟩ := maxBond_le bonds x hx
      rw [List.length_replicate]
      omega)
  have hget : ∀ p, p ≤ maxBond bonds → ∃ o, r[p]? = some o ∧ ∀ a, o = some a ↔ isNode.getD a false = true ∧ tr a = p := by
    intro p hp
    by_cases hm : p ∈ ((List.range isNode.length).filter fun i => isNode.getD i false).map tr
    · obtain ⟨a, ha, rfl⟩ := List.mem_map.1 hm
      refine ⟨some a, ?_, ?_⟩
      · rw [r3 a ha, List.getElem?_replicate, if_pos (by omega)]
        rfl
      · intro b
        constructor
        · intro e
          cases e
          exact ⟨(hnode a).1 ha, rfl⟩
        · rintro ⟨h1, h2⟩
          rw [hinj b a h1 ((hnode a).1 ha) h2]
    · refine ⟨none, ?_, ?_⟩
      · rw [r4 p hm, List.getElem?_replicate, if_pos (by omega)]
      · intro b
        constructor
        · intro e; cases e
        · rintro ⟨h1, h2⟩
          exact absurd (List.mem_map.2 ⟨b, (hnode b).2 h1, h2⟩) hm
  have hboth : ∀ x ∈ bonds, ∃ o, bothEnds r x = .ok o ∧ ∀ a b, o = some (a, b) ↔ isNode.getD a false = true ∧ isNode.getD b false = true ∧ tr a = x.1 ∧ tr b = x.2 := by
    intro x hx
    obtain ⟨m1, m2⟩ := maxBond_le bonds x hx
    obtain ⟨o1, a1, a2⟩ := hget x.1 m1
    obtain ⟨o2, b1, b2⟩ := hget x.2 m2
    unfold bothEnds idx
    rw [a1, b1]
    simp only [ok_bind]
    cases o1 with
    | none =>
      refine ⟨none, rfl, fun a b => ⟨nofun, ?_⟩⟩
      rintro ⟨h1, _, h3, _⟩
      exact absurd ((a2 a).2 ⟨h1, h3⟩) (by simp)
    | some c =>
      cases o2 with
      | none =>
        refine ⟨none, rfl, fun a b => ⟨nofun, ?_⟩⟩
        rintro ⟨_, h1, _, h3⟩
        exact absurd ((b2 b).2 ⟨h1, h3⟩) (by simp)
      | some d =>
        refine ⟨some (c, d), rfl, fun a b => ?_⟩
        rw [Option.some.injEq, Prod.mk.injEq]
        have e1 := a2 a
        have e2 := b2 b
        rw [Option.some.injEq] at e1 e2
        rw [e1, e2]
        tauto
  choose! o ho using hboth
  unfold trajBonds pos2traj
  dsimp only
  rw [if_neg (by omega), r1, ok_bind, if_neg (by omega), TreeIndex.mapM_ok_of _ o _ (fun x hx => (ho x hx).1), ok_bind]
  refine ⟨_, rfl, fun a b => ?_⟩
  rw [List.mem_filterMap]
  constructor
  · rintro ⟨y, hy, he⟩
    obtain ⟨x, hx, rfl⟩ := List.mem_map.1 hy
    obtain ⟨h1, h2, h3, h4⟩ := ((ho x hx).2 a b).1 he
    exact ⟨h1, h2, by rw [h3, h4]; exact hx⟩
  · rintro ⟨h1, h2, h3⟩
    exact ⟨_, List.mem_map.2 ⟨_, h3, rfl⟩, ((ho _ h3).2 a b).2 ⟨h1, h2, rfl, rfl⟩⟩

/-- four trajectories, the last one is not a node -/
example : let isNode := [true, true, true, false]
    (∀ a b, isNode.getD a false = true → isNode.getD b false = true → (fun i : Nat => i) a = (fun i : Nat => i) b → a = b) ∧
    ∀ a, isNode.getD a false = true → ∃ x ∈ [((0 : Nat), (1 : Nat)), (2, 3)], a ≤ x.1 ∨ a ≤ x.2 := by
  intro isNode
  refine ⟨fun a b _ _ h => h, fun a ha => ⟨(2, 3), by simp, ?_⟩⟩
  have : a < 4 := by
    by_contra hc
    rw [List.getD_eq_getElem?_getD, List.getElem?_eq_none (by simp [isNode]; omega)] at ha
    cases ha
  dsimp only
  omega

/-- what is asked from networkx: lists of nodes, without two times the same, two nodes being in one of them if and only if they are connected -/
structure IsComponents (components : List Nat → List (Nat × Nat) → List (List Nat)) : Prop where
  mem : ∀ nodes edges c, c ∈ components nodes edges → c ≠ [] ∧ ∀ a ∈ c, a ∈ nodes
  same : ∀ nodes edges a b, a ∈ nodes → b ∈ nodes → ((∃ c ∈ components nodes edges, a ∈ c ∧ b ∈ c) ↔ Relation.EqvGen (fun a b => (a, b) ∈ edges) a b)
  disjoint : ∀ nodes edges c c' a, c ∈ components nodes edges → c' ∈ components nodes edges → a ∈ c → a ∈ c' → c = c'

open Classical in
/-- such a function exists -/
theorem isComponents_exists : ∃ components, IsComponents components := by
  refine ⟨fun nodes edges => nodes.map fun a => nodes.filter fun b => decide (Relation.EqvGen (fun a b => (a, b) ∈ edges) a b), ⟨?_, ?_, ?_⟩⟩
  · intro nodes edges c hc
    obtain ⟨a, ha, rfl⟩ := List.mem_map.1 hc
    refine ⟨List.ne_nil_of_mem (List.mem_filter.2 ⟨ha, decide_eq_true (Relation.EqvGen.refl a)⟩), fun b hb => (List.mem_filter.1 hb).1⟩
  · intro nodes edges a b ha hb
    constructor
    · rintro ⟨c, hc, h1, h2⟩
      obtain ⟨d, hd, rfl⟩ := List.mem_map.1 hc
      exact ((of_decide_eq_true (List.mem_filter.1 h1).2).symm).trans _ _ _ (of_decide_eq_true (List.mem_filter.1 h2).2)
    · intro h
      exact ⟨_, List.mem_map.2 ⟨a, ha, rfl⟩, List.mem_filter.2 ⟨ha, decide_eq_true (Relation.EqvGen.refl a)⟩, List.mem_filter.2 ⟨hb, decide_eq_true h⟩⟩
  · intro nodes edges c c' a hc hc' h1 h2
    obtain ⟨d, hd, rfl⟩ := List.mem_map.1 hc
    obtain ⟨d', hd', rfl⟩ := List.mem_map.1 hc'
    have e1 := of_decide_eq_true (List.mem_filter.1 h1).2
    have e2 := of_decide_eq_true (List.mem_filter.1 h2).2
    have e : Relation.EqvGen (fun a b => (a, b) ∈ edges) d d' := e1.trans _ _ _ e2.symm
    apply List.filter_congr
    intro x _
    rw [decide_eq_decide]
    exact ⟨fun h => e.symm.trans _ _ _ h, fun h => e.trans _ _ _ h⟩

/-- **C214** Two trajectories are in the same cluster when a chain of bonds between nodes joins them; a trajectory is in a cluster when it has a bond to a node. -/
theorem C214_clusters_partial (components : List Nat → List (Nat × Nat) → List (List Nat)) (hcomp : IsComponents components) (bonds : List (Nat × Nat)) (h2 : 2 ≤ bonds.length)
    (tr : Nat → Nat) (isNode : List Bool)
    (hinj : ∀ a b, isNode.getD a false = true → isNode.getD b false = true → tr a = tr b → a = b)
    (hmax : ∀ a, isNode.getD a false = true → ∃ x ∈ bonds, tr a ≤ x.1 ∨ tr a ≤ x.2) :
    let bonded := fun a b => isNode.getD a false = true ∧ isNode.getD b false = true ∧ (tr a, tr b) ∈ bonds
    ∃ out, getClusters components bonds tr isNode = .ok out ∧
      (∀ a, (∃ c ∈ out, a ∈ c) ↔ ∃ b, bonded a b ∨ bonded b a) ∧
      ∀ a b, (∃ b, bonded a b ∨ bonded b a) → (∃ a, bonded a b ∨ bonded b a) → ((∃ c ∈ out, a ∈ c ∧ b ∈ c) ↔ Relation.EqvGen bonded a b) := by
  intro bonded
  obtain ⟨e, h1, h3⟩ := C214_bonds_partial bonds h2 tr isNode hinj hmax
  have hrel : (fun a b => (a, b) ∈ e) = bonded := by
    funext a b
    exact propext (h3 a b)
  have hmem : ∀ a, a ∈ (e.flatMap fun x => [x.1, x.2]).dedup ↔ ∃ b, bonded a b ∨ bonded b a := by
    intro a
    rw [List.mem_dedup, List.mem_flatMap]
    constructor
    · rintro ⟨⟨x, y⟩, hx, ha⟩
      simp only [List.mem_cons, List.not_mem_nil, or_false] at ha
      rcases ha with rfl | rfl
      · exact ⟨y, Or.inl ((h3 _ _).1 hx)⟩
      · exact ⟨x, Or.inr ((h3 _ _).1 hx)⟩
    · rintro ⟨b, h | h⟩
      · exact ⟨(a, b), (h3 a b).2 h, by simp⟩
      · exact ⟨(b, a), (h3 b a).2 h, by simp⟩
  unfold getClusters
  rw [h1, ok_bind]
  refine ⟨_, rfl, ?_, ?_⟩
  · intro a
    rw [← hmem]
    constructor
    · rintro ⟨c, hc, ha⟩
      exact (hcomp.mem _ _ c hc).2 a ha
    · intro ha
      obtain ⟨c, hc, h, _⟩ := (hcomp.same _ e a a ha ha).2 (Relation.EqvGen.refl a)
      exact ⟨c, hc, h⟩
  · intro a b ha hb
    have hb' : ∃ a, bonded b a ∨ bonded a b := by
      obtain ⟨x, hx⟩ := hb
      exact ⟨x, hx.symm⟩
    rw [hcomp.same _ e a b ((hmem a).2 ha) ((hmem b).2 hb'), hrel]

/-- **C214** Counterexample: a node whose position is after all the positions that have a bond is an error, though it has only to be left out. -/
theorem C214_outside_counterexample (bonds : List (Nat × Nat)) (tr : Nat → Nat) (isNode : List Bool) (a : Nat) (ha : isNode.getD a false = true)
    (hmax : ∀ x ∈ bonds, x.1 < tr a ∧ x.2 < tr a) (hpos : 0 < tr a) (out : List (Nat × Nat)) : trajBonds bonds tr isNode ≠ .ok out := by
  intro h
  unfold trajBonds at h
  dsimp only at h
  split_ifs at h with h0 h1
  · obtain ⟨l, _, h⟩ := bind_ok.1 h
    cases h
  · obtain ⟨l, hl, _⟩ := bind_ok.1 h
    have hlt : maxBond bonds < tr a := by
      have key : ∀ (l : List Nat) (m : Nat), m < tr a → (∀ x ∈ l, x < tr a) → l.foldl max m < tr a := by
        intro l
        induction l with
        | nil => intro m hm _; exact hm
        | cons b l ih =>
          intro m hm hl
          rw [List.foldl_cons]
          exact ih (max m b) (max_lt hm (hl b (List.mem_cons_self ..))) fun x hx => hl x (List.mem_cons_of_mem _ hx)
      apply key _ 0 hpos
      intro x hx
      obtain ⟨y, hy, rfl⟩ := List.mem_map.1 hx
      exact max_lt (hmax y hy).1 (hmax y hy).2
    unfold pos2traj at hl
    have hmem : a ∈ (List.range isNode.length).filter fun i => isNode.getD i false := by
      rw [List.mem_filter, List.mem_range]
      refine ⟨?_, ha⟩
      by_contra hc
      rw [List.getD_eq_getElem?_getD, List.getElem?_eq_none (by omega)] at ha
      cases ha
    refine Bonds.foldlM_error (fun l : List (Option Nat) => l.length = maxBond bonds + 1) hmem ?_ ?_ _ _ (by simp) hl
    · intro b x b' hb h
      rw [(Bonds.upd_length h).2, hb]
    · intro b b' hb h
      have := (Bonds.upd_length h).1
      omega

example : ∀ x ∈ [((0 : Nat), (1 : Nat)), (1, 2)], x.1 < 3 ∧ x.2 < 3 := by decide

/-- **C214** Counterexample: a file with one bond is an error. -/
theorem C214_single_counterexample (x : Nat × Nat) (tr : Nat → Nat) (isNode : List Bool) (out : List (Nat × Nat)) : trajBonds [x] tr isNode ≠ .ok out := by
  intro h
  unfold trajBonds at h
  dsimp only at h
  rw [if_neg (by simp)] at h
  obtain ⟨l, _, h⟩ := bind_ok.1 h
  rw [if_pos (by simp)] at h
  cases h

/-- **C214** Counterexample: `get_time_clusters` is an error whenever there is a time, whatever the clusters are. -/
theorem C214_time_counterexample (c : R (List (List Nat))) (clusters : List (R (List (List Nat)))) (out : Unit) : getTimeClusters (c :: clusters) ≠ .ok out := by
  intro h
  unfold getTimeClusters at h
  obtain ⟨l, hl, h⟩ := bind_ok.1 h
  cases l with
  | nil =>
    rw [List.mapM_cons] at hl
    obtain ⟨a, _, hl⟩ := bind_ok.1 hl
    obtain ⟨b, _, hl⟩ := bind_ok.1 hl
    cases hl
  | cons => cases h

end Follow
end Py
end Colloids
