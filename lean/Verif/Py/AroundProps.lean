import Verif.Py.BrokenProps
import Verif.Py.ExperimentTrajProps

/-! # Bonds around bonds in python (C173) -/

namespace Colloids
namespace Py
namespace Broken
open Average (idx_some)
open Exp (At)

/-- Loops that add to the results. -/
theorem fold_collect {α β : Type} (f : List β → α → R (List β)) (g : α → List β) (l : List α) (h : ∀ x ∈ l, ∀ res, f res x = .ok (res ++ g x)) (res : List β) :
    l.foldlM f res = .ok (res ++ l.flatMap g) := by
  induction l generalizing res with
  | nil => simp [pure_eq_ok]
  | cons x l ih =>
    rw [List.foldlM_cons, h x (by simp), ok_bind, ih (fun y hy => h y (by simp [hy])), List.flatMap_cons, List.append_assoc]

/-- The position of a trajectory at a time. -/
theorem at_index {trajs : List (Nat × List Nat)} {t p tr : Nat} (h : At trajs t p tr) :
    ∃ T k, trajs[tr]? = some T ∧ Exp.pyIndex T.2.length ((t : Int) - T.1) = .ok k ∧ T.2[k]? = some p := by
  obtain ⟨T, dt, hT, hp, rfl⟩ := h
  have hlt := (List.getElem?_eq_some_iff.1 hp).1
  refine ⟨T, dt, hT, ?_, hp⟩
  unfold Exp.pyIndex
  rw [if_pos (by omega), if_pos (by omega)]
  congr 1
  omega

theorem at_unique {trajs : List (Nat × List Nat)} {t p p' tr : Nat} (h : At trajs t p tr) (h' : At trajs t p' tr) : p = p' := by
  obtain ⟨T, dt, hT, hp, rfl⟩ := h
  obtain ⟨T', dt', hT', hp', he⟩ := h'
  rw [hT, Option.some.injEq] at hT'
  subst hT'
  have : dt = dt' := by omega
  subst this
  rw [hp, Option.some.injEq] at hp'
  exact hp'

/-- C173. `neighbouring_bonds` gives the bonds, the smallest trajectory first, between one member of a bond of interest and a trajectory that is not in this
bond, when the members of the bonds of interest exist at this time. -/
theorem C173_around_partial {trajs : List (Nat × List Nat)} {t : Nat} {f : Frame} (w : f.WF) (hp : ∀ p tr : Nat, f.p2tr[p]? = some tr ↔ At trajs t p tr)
    {interest : List (Nat × Nat)} (hi : ∀ x ∈ interest, x.1 ∈ f.p2tr ∧ x.2 ∈ f.p2tr) :
    ∃ l, neighbouringBonds trajs t f interest = .ok l ∧ ∀ a b, (a, b) ∈ l ↔ a ≤ b ∧ f.Bonded a b ∧
      ∃ x ∈ interest, ((a = x.1 ∨ a = x.2) ∧ b ≠ x.1 ∧ b ≠ x.2) ∨ ((b = x.1 ∨ b = x.2) ∧ a ≠ x.1 ∧ a ≠ x.2) := by
  set N := f.p2tr.length with hN
  have hlist : Bonds.bonds2ngbsList f.bonds N = .ok ((List.range N).map fun i => Bonds.ends i f.bonds) := Bonds.C154_list w
  -- the neighbours of the position of a trajectory
  have hpos : ∀ tr ∈ f.p2tr, ∃ p, f.p2tr[p]? = some tr := fun tr h => List.getElem?_of_mem h
  choose! pos hposs using hpos
  let one : Nat × Nat → Nat → List (Nat × Nat) := fun x tr =>
    (Bonds.ends (pos tr) f.bonds).flatMap fun j => if f.p2tr.getD j 0 = x.1 ∨ f.p2tr.getD j 0 = x.2 then [] else [sortPair (tr, f.p2tr.getD j 0)]
  have hend : ∀ i j, j ∈ Bonds.ends i f.bonds → f.p2tr[j]? = some (f.p2tr.getD j 0) := by
    intro i j hj
    rcases Bonds.mem_ends.1 hj with h | h
    · exact getD_of_lt (w _ h).2
    · exact getD_of_lt (w _ h).1
  have hone : ∀ (x : Nat × Nat) (tr : Nat) (res : List (Nat × Nat)), tr ∈ f.p2tr → (do
      let T ← idx trajs tr
      let k ← Exp.pyIndex T.2.length ((t : Int) - T.1)
      let a ← idx T.2 k
      let js ← idx ((List.range N).map fun i => Bonds.ends i f.bonds) a
      js.foldlM (fun res j => do
        let other ← idx f.p2tr j
        pure (if other = x.1 ∨ other = x.2 then res else res ++ [sortPair (tr, other)])) res) = .ok (res ++ one x tr) := by
    intro x tr res htr
    obtain ⟨T, k, hT, hk, hTk⟩ := at_index ((hp _ _).1 (hposs tr htr))
    have hlt : pos tr < N := (List.getElem?_eq_some_iff.1 (hposs tr htr)).1
    rw [idx_some hT, ok_bind, hk, ok_bind, idx_some hTk, ok_bind,
      idx_some (a := Bonds.ends (pos tr) f.bonds) (by rw [Linker.get_mapRange, if_pos hlt]), ok_bind]
    refine fold_collect _ _ _ (fun j hj res => ?_) res
    rw [idx_some (hend _ j hj), ok_bind, pure_eq_ok]
    split <;> simp
  refine ⟨interest.flatMap fun x => [x.1, x.2].flatMap (one x), ?_, fun a b => ?_⟩
  · unfold neighbouringBonds
    rw [← hN, hlist, ok_bind]
    rw [fold_collect _ (fun x : Nat × Nat => [x.1, x.2].flatMap (one x)), List.nil_append]
    intro x hx res
    refine fold_collect _ _ _ (fun tr htr res => hone x tr res ?_) res
    have := hi x hx
    rcases List.mem_cons.1 htr with rfl | htr
    · exact this.1
    · rw [List.mem_singleton] at htr
      exact htr ▸ this.2
  · have hmem : ∀ x tr, tr ∈ f.p2tr → ((a, b) ∈ one x tr ↔ ∃ other, sortPair (tr, other) = (a, b) ∧ f.Bonded tr other ∧ other ≠ x.1 ∧ other ≠ x.2) := by
      intro x tr htr
      simp only [one, List.mem_flatMap]
      constructor
      · rintro ⟨j, hj, h⟩
        split_ifs at h with hx
        · simp at h
        · rw [not_or] at hx
          rw [List.mem_singleton] at h
          refine ⟨f.p2tr.getD j 0, h.symm, ⟨pos tr, j, ?_, hposs tr htr, hend _ j hj⟩, hx.1, hx.2⟩
          exact Bonds.mem_ends.1 hj
      · rintro ⟨other, h, ⟨i, j, hb, hi', hj'⟩, h1, h2⟩
        have : i = pos tr := at_unique ((hp _ _).1 hi') ((hp _ _).1 (hposs tr htr))
        subst this
        have e : f.p2tr.getD j 0 = other := by rw [List.getD_eq_getElem?_getD, hj']; rfl
        refine ⟨j, Bonds.mem_ends.2 hb, ?_⟩
        rw [e, if_neg (by rintro (h | h) <;> contradiction), h]
        simp
    rw [List.mem_flatMap]
    constructor
    · rintro ⟨x, hx, h⟩
      obtain ⟨tr, htr, h⟩ := List.mem_flatMap.1 h
      have htr' : tr = x.1 ∨ tr = x.2 := by simpa using htr
      have hin : tr ∈ f.p2tr := by rcases htr' with rfl | rfl <;> [exact (hi x hx).1; exact (hi x hx).2]
      obtain ⟨other, e, hb, h1, h2⟩ := (hmem x tr hin).1 h
      have hab : a ≤ b := by
        have := sortPair_le (tr, other)
        rw [e] at this
        exact this
      rcases (sortPair_eq hab).1 e with e | e
      · rw [Prod.mk.injEq] at e
        obtain ⟨rfl, rfl⟩ := e
        exact ⟨hab, hb, x, hx, .inl ⟨htr', h1, h2⟩⟩
      · rw [Prod.mk.injEq] at e
        obtain ⟨rfl, rfl⟩ := e
        exact ⟨hab, hb.symm, x, hx, .inr ⟨htr', h1, h2⟩⟩
    · rintro ⟨hab, hb, x, hx, ⟨ha, h1, h2⟩ | ⟨hb', h1, h2⟩⟩
      · refine ⟨x, hx, List.mem_flatMap.2 ⟨a, by simpa using ha, (hmem x a hb.mem.1).2 ⟨b, (sortPair_eq hab).2 (.inl rfl), hb, h1, h2⟩⟩⟩
      · refine ⟨x, hx, List.mem_flatMap.2 ⟨b, by simpa using hb', (hmem x b hb.mem.2).2 ⟨a, (sortPair_eq hab).2 (.inr rfl), hb.symm, h1, h2⟩⟩⟩

/-- A chain of four particles whose third bond is of interest. -/
def chain : Frame := ⟨[(0, 1), (1, 2), (2, 3)], [0, 1, 2, 3]⟩

example : chain.WF ∧ (∀ p tr : Nat, chain.p2tr[p]? = some tr ↔ At [(0, [0]), (0, [1]), (0, [2]), (0, [3])] 0 p tr)
    ∧ ∀ x ∈ [(2, 3)], x.1 ∈ chain.p2tr ∧ x.2 ∈ chain.p2tr := by
  refine ⟨by unfold Frame.WF; decide, ?_, by decide⟩
  intro p tr
  constructor
  · intro h
    have hp := (List.getElem?_eq_some_iff.1 h).1
    have hp : p < 4 := hp
    rcases (by omega : p = 0 ∨ p = 1 ∨ p = 2 ∨ p = 3) with rfl | rfl | rfl | rfl <;> simp [chain] at h <;> subst h <;> exact ⟨_, 0, rfl, rfl, rfl⟩
  · rintro ⟨T, dt, hT, h1, h2⟩
    have htr := (List.getElem?_eq_some_iff.1 hT).1
    have htr : tr < 4 := htr
    rcases (by omega : tr = 0 ∨ tr = 1 ∨ tr = 2 ∨ tr = 3) with rfl | rfl | rfl | rfl <;> simp at hT <;> subst hT <;>
      (have : dt = 0 := by simp at h2; omega) <;> subst this <;> simp at h1 <;> subst h1 <;> rfl

example : neighbouringBonds [(0, [0]), (0, [1]), (0, [2]), (0, [3])] 0 chain [(2, 3)] = .ok [(1, 2)] := by decide +kernel

/-- C173 fails for a trajectory that begins later: the index is negative, and another position of the trajectory is taken. Here the trajectories 0 and 1 are bonded,
the trajectory 2 does not exist yet, and a bond of the trajectories 1 and 2 is given. -/
theorem C173_later_counterexample : ∃ (trajs : List (Nat × List Nat)) (f : Frame), f.WF ∧ (∀ p, ¬ At trajs 0 p 2) ∧ ¬ f.Bonded 1 2
    ∧ neighbouringBonds trajs 0 f [(2, 3)] = .ok [(1, 2)] := by
  refine ⟨[(0, [0]), (0, [1]), (1, [0]), (0, [2])], ⟨[(0, 1)], [0, 1, 3]⟩, by unfold Frame.WF; decide, ?_, ?_, by decide +kernel⟩
  · rintro p ⟨T, dt, hT, -, h⟩
    simp at hT
    subst hT
    simp only at h
    omega
  · intro h
    have := h.mem.2
    revert this
    decide

/-- C173 fails: the result is not a set. The bond between two bonds of interest is given twice. -/
theorem C173_twice_counterexample : ∃ (trajs : List (Nat × List Nat)) (f : Frame), f.WF ∧ neighbouringBonds trajs 0 f [(0, 1), (2, 3)] = .ok [(1, 2), (1, 2)] :=
  ⟨[(0, [0]), (0, [1]), (0, [2]), (0, [3])], chain, by unfold Frame.WF; decide, by decide +kernel⟩

end Broken
end Py
end Colloids
