import Mathlib.Data.List.Perm.Basic
import Mathlib.Data.List.Nodup
import Verif.CommonLemmas
import Verif.Index.Lemmas
import Verif.Py.FollowModel

/-!
# Lengths of trajectories
-/

namespace Colloids
namespace Py
namespace Follow

/-- the position of a trajectory at time `t` -/
def posAt (x : Nat × List Nat) (t : Nat) : Option Nat := if x.1 ≤ t then x.2[t - x.1]? else none

/-- the positions at time `t` that are on a trajectory, in the order of trajectories -/
def positions (trajs : List (Nat × List Nat)) (t : Nat) : List Nat := trajs.filterMap fun x => posAt x t

/-- **C215** `traj_crea_dest`: trajectory `i` has a position at the times from its creation to just before its destruction, and only then. -/
theorem C215_crea_dest (trajs : List (Nat × List Nat)) (i : Nat) (x : Nat × List Nat) (h : trajs[i]? = some x) :
    ∃ c d, (creaDest trajs)[i]? = some (c, d) ∧ ∀ t, (posAt x t).isSome = true ↔ c ≤ t ∧ t < d := by
  refine ⟨x.1, x.1 + x.2.length, ?_, fun t => ?_⟩
  · unfold creaDest
    rw [List.getElem?_map, h]
    rfl
  · unfold posAt
    split
    · rw [Option.isSome_iff_exists]
      constructor
      · rintro ⟨a, ha⟩
        have := (List.getElem?_eq_some_iff.1 ha).1
        omega
      · intro h
        exact ⟨_, List.getElem?_eq_getElem (by omega)⟩
    · simp
      omega

theorem framesizes_spec (size : Nat) (trajs : List (Nat × List Nat)) :
    (framesizes size trajs).length = size ∧ ∀ t < size, (framesizes size trajs).getD t 0 = (positions trajs t).length := by
  induction trajs using List.reverseRecOn with
  | nil =>
    unfold framesizes positions
    refine ⟨by simp, fun t ht => ?_⟩
    rw [List.foldl_nil, List.getD_eq_getElem?_getD, List.getElem?_replicate, if_pos ht]
    rfl
  | append_singleton trajs x ih =>
    obtain ⟨h1, h2⟩ := ih
    have e : framesizes size (trajs ++ [x]) = (List.range (framesizes size trajs).length).map fun t =>
        if x.1 ≤ t ∧ t < x.1 + x.2.length then (framesizes size trajs).getD t 0 + 1 else (framesizes size trajs).getD t 0 := by
      unfold framesizes
      rw [List.foldl_append]
      rfl
    rw [e]
    refine ⟨by simp [h1], fun t ht => ?_⟩
    rw [List.getD_eq_getElem?_getD, List.getElem?_map, List.getElem?_range (by omega), Option.map_some, Option.getD_some, h2 t ht]
    unfold positions
    rw [List.filterMap_append, List.length_append]
    by_cases hc : x.1 ≤ t ∧ t < x.1 + x.2.length
    · have hp : posAt x t = some (x.2[t - x.1]'(by omega)) := by
        unfold posAt
        rw [if_pos hc.1, List.getElem?_eq_getElem]
      rw [if_pos hc, List.filterMap_cons_some (f := fun x => posAt x t) (a := x) hp]
      rfl
    · have hp : posAt x t = none := by
        unfold posAt
        split
        · rw [List.getElem?_eq_none]
          omega
        · rfl
      rw [if_neg hc, List.filterMap_cons_none (f := fun x => posAt x t) (a := x) hp]
      rfl

/-- the writings of `vtk_tracking` in order: time, position, trajectory -/
def writes (trajs : List (Nat × List Nat)) : List (Nat × Nat × Nat) :=
  trajs.zipIdx.flatMap fun x => x.1.2.zipIdx.map fun y => (x.1.1 + y.2, y.1, x.2)

theorem fillPos_eq (size : Nat) (trajs : List (Nat × List Nat)) :
    fillPos size trajs = (writes trajs).foldlM write ((framesizes size trajs).map fun s => List.replicate s none) := by
  unfold fillPos writes
  generalize (framesizes size trajs).map (fun s => List.replicate s (none : Option Nat)) = a
  generalize trajs.zipIdx = l
  induction l generalizing a with
  | nil => rfl
  | cons x l ih =>
    rw [List.foldlM_cons, List.flatMap_cons, List.foldlM_append, List.foldlM_map]
    congr 1
    funext a
    exact ih a

theorem mem_writes (trajs : List (Nat × List Nat)) (t p i : Nat) :
    (t, p, i) ∈ writes trajs ↔ ∃ x, trajs[i]? = some x ∧ posAt x t = some p := by
  unfold writes
  rw [List.mem_flatMap]
  constructor
  · rintro ⟨⟨x, j⟩, hx, hy⟩
    obtain ⟨⟨q, k⟩, hq, he⟩ := List.mem_map.1 hy
    simp only [Prod.mk.injEq] at he
    obtain ⟨rfl, rfl, rfl⟩ := he
    rw [List.mk_mem_zipIdx_iff_getElem?] at hx hq
    refine ⟨x, hx, ?_⟩
    unfold posAt
    rw [if_pos (by omega), Nat.add_sub_cancel_left, hq]
  · rintro ⟨x, hx, hp⟩
    unfold posAt at hp
    split at hp
    · rename_i hle
      refine ⟨(x, i), List.mk_mem_zipIdx_iff_getElem?.2 hx, List.mem_map.2 ⟨(p, t - x.1), List.mk_mem_zipIdx_iff_getElem?.2 hp, ?_⟩⟩
      simp only [Prod.mk.injEq, and_self, and_true]
      omega
    · cases hp

/-- writings at different places that exist -/
theorem write_fold (l : List (Nat × Nat × Nat)) (a : List (List (Option Nat)))
    (hin : ∀ w ∈ l, ∃ row, a[w.1]? = some row ∧ w.2.1 < row.length)
    (hfun : ∀ w ∈ l, ∀ w' ∈ l, w.1 = w'.1 → w.2.1 = w'.2.1 → w.2.2 = w'.2.2) :
    ∃ r, l.foldlM write a = .ok r ∧ r.length = a.length ∧ ∀ t row, a[t]? = some row → ∃ row', r[t]? = some row' ∧ row'.length = row.length ∧
      (∀ p i, (t, p, i) ∈ l → row'[p]? = some (some i)) ∧ ∀ p, (∀ i, (t, p, i) ∉ l) → row'[p]? = row[p]? := by
  induction l using List.reverseRecOn with
  | nil => exact ⟨a, rfl, rfl, fun t row h => ⟨row, h, rfl, by simp, by simp⟩⟩
  | append_singleton l w ih =>
    obtain ⟨r, h1, h2, h3⟩ := ih (fun w hw => hin w (List.mem_append_left _ hw))
      (fun w hw w' hw' => hfun w (List.mem_append_left _ hw) w' (List.mem_append_left _ hw'))
    obtain ⟨row, hr1, hr2⟩ := hin w (by simp)
    obtain ⟨row', hr3, hr4, hr5, hr6⟩ := h3 w.1 row hr1
    have hlt : w.1 < r.length := (List.getElem?_eq_some_iff.1 hr3).1
    have hw : write r w = .ok (r.modify w.1 fun _ => row'.modify w.2.1 fun _ => some w.2.2) := by
      unfold write upd idx
      rw [hr3]
      simp only [ok_bind]
      rw [if_pos (by omega), ok_bind, if_pos hlt]
    refine ⟨_, by rw [List.foldlM_append, h1, ok_bind, List.foldlM_cons, hw]; rfl, by simp [h2], ?_⟩
    intro t row0 ht
    obtain ⟨row1, g1, g2, g3, g4⟩ := h3 t row0 ht
    by_cases htw : w.1 = t
    · subst htw
      rw [hr3] at g1
      cases g1
      refine ⟨row'.modify w.2.1 fun _ => some w.2.2, ?_, by simp [g2], ?_, ?_⟩
      · rw [List.getElem?_modify_eq, hr3]
        rfl
      · intro p i hm
        by_cases hp : w.2.1 = p
        · have := hfun (w.1, p, i) hm w (by simp) rfl hp.symm
          dsimp only at this
          subst hp
          rw [List.getElem?_modify_eq, List.getElem?_eq_getElem (by omega), this]
          rfl
        · rw [List.getElem?_modify_ne _ _ hp]
          rcases List.mem_append.1 hm with hm | hm
          · exact g3 p i hm
          · exact absurd (by rw [← List.mem_singleton.1 hm]) hp
      · intro p hn
        have hp : w.2.1 ≠ p := by
          intro e
          exact hn w.2.2 (by subst e; simp)
        rw [List.getElem?_modify_ne _ _ hp]
        exact g4 p fun i hi => hn i (List.mem_append_left _ hi)
    · refine ⟨row1, by rw [List.getElem?_modify_ne _ _ htw]; exact g1, g2, ?_, ?_⟩
      · intro p i hm
        rcases List.mem_append.1 hm with hm | hm
        · exact g3 p i hm
        · exact absurd (by rw [← List.mem_singleton.1 hm]) htw
      · intro p hn
        exact g4 p fun i hi => hn i (List.mem_append_left _ hi)

/-- **C215** `vtk_tracking`, times that begin at 0: when at each time each position from 0 to the last one is on one trajectory, the field written at time `t` is at each position the
length of the trajectory that has it. -/
theorem C215_length_partial (size : Nat) (trajs : List (Nat × List Nat)) (N : Nat → Nat) (hperm : ∀ t < size, (positions trajs t).Perm (List.range (N t)))
    (hend : ∀ x ∈ trajs, x.1 + x.2.length ≤ size) (t : Nat) (ht : t < size) :
    ∃ out, trajLength size trajs t = .ok out ∧ out.length = N t ∧
      ∀ (i : Nat) (x : Nat × List Nat) (p : Nat), trajs[i]? = some x → posAt x t = some p → out[p]? = some x.2.length := by
  obtain ⟨f1, f2⟩ := framesizes_spec size trajs
  have hlen : ∀ t < size, (framesizes size trajs).getD t 0 = N t := by
    intro t ht
    rw [f2 t ht, (hperm t ht).length_eq, List.length_range]
  have hrow : ∀ t < size, ((framesizes size trajs).map fun s => List.replicate s (none : Option Nat))[t]? = some (List.replicate (N t) none) := by
    intro t ht
    have hl := hlen t ht
    rw [List.getD_eq_getElem?_getD, List.getElem?_eq_getElem (by omega)] at hl
    rw [List.getElem?_map, List.getElem?_eq_getElem (by omega)]
    simp only [Option.getD_some] at hl
    rw [hl]
    rfl
  have hlt : ∀ x ∈ trajs, ∀ t p, posAt x t = some p → t < size := by
    intro x hx t p hp
    unfold posAt at hp
    split at hp
    · have := (List.getElem?_eq_some_iff.1 hp).1
      have := hend x hx
      omega
    · cases hp
  have hmemp : ∀ (t i : Nat) (x : Nat × List Nat) (p : Nat), trajs[i]? = some x → posAt x t = some p → p ∈ positions trajs t := by
    intro t i x p hx hp
    exact List.mem_filterMap.2 ⟨x, List.mem_of_getElem? hx, hp⟩
  -- two trajectories have not the same position
  have hinj : ∀ t < size, ∀ (i j : Nat) (x y : Nat × List Nat) (p : Nat), trajs[i]? = some x → trajs[j]? = some y → posAt x t = some p → posAt y t = some p → i = j := by
    intro t ht
    have hnd : (positions trajs t).Nodup := (hperm t ht).nodup_iff.2 List.nodup_range
    clear hperm hend hlen hrow hlt hmemp f1 f2
    induction trajs with
    | nil => intro i j x y p hx; simp at hx
    | cons z trajs ih =>
      intro i j x y p hx hy hpx hpy
      have hnd' : (positions trajs t).Nodup := by
        unfold positions at hnd ⊢
        cases hz : posAt z t with
        | none => rwa [List.filterMap_cons_none (f := fun x => posAt x t) (a := z) hz] at hnd
        | some q => rw [List.filterMap_cons_some (f := fun x => posAt x t) (a := z) hz] at hnd; exact (List.nodup_cons.1 hnd).2
      have hno : ∀ (j : Nat) (y : Nat × List Nat), trajs[j]? = some y → posAt y t = some p → posAt z t ≠ some p := by
        intro j y hy hp hz
        unfold positions at hnd
        rw [List.filterMap_cons_some (f := fun x => posAt x t) (a := z) hz] at hnd
        exact (List.nodup_cons.1 hnd).1 (List.mem_filterMap.2 ⟨y, List.mem_of_getElem? hy, hp⟩)
      rcases i with _ | i
      · rcases j with _ | j
        · rfl
        · simp only [List.getElem?_cons_zero, Option.some.injEq] at hx
          subst hx
          exact absurd hpx (hno j y (by simpa using hy) hpy)
      · rcases j with _ | j
        · simp only [List.getElem?_cons_zero, Option.some.injEq] at hy
          subst hy
          exact absurd hpy (hno i x (by simpa using hx) hpx)
        · rw [ih hnd' i j x y p (by simpa using hx) (by simpa using hy) hpx hpy]
  obtain ⟨r, r1, r2, r3⟩ := write_fold (writes trajs) ((framesizes size trajs).map fun s => List.replicate s none)
    (by
      rintro ⟨t, p, i⟩ hw
      obtain ⟨x, hx, hp⟩ := (mem_writes trajs t p i).1 hw
      have hts := hlt x (List.mem_of_getElem? hx) t p hp
      refine ⟨_, hrow t hts, ?_⟩
      rw [List.length_replicate]
      exact List.mem_range.1 ((hperm t hts).mem_iff.1 (hmemp t i x p hx hp)))
    (by
      rintro ⟨t, p, i⟩ hw ⟨t', p', j⟩ hw' e1 e2
      dsimp only at e1 e2 ⊢
      subst e1; subst e2
      obtain ⟨x, hx, hp⟩ := (mem_writes trajs t p i).1 hw
      obtain ⟨y, hy, hq⟩ := (mem_writes trajs t p j).1 hw'
      exact hinj t (hlt x (List.mem_of_getElem? hx) t p hp) i j x y p hx hy hp hq)
  obtain ⟨row, w1, w2, w3, -⟩ := r3 t _ (hrow t ht)
  rw [List.length_replicate] at w2
  -- each position has a trajectory
  have hall : ∀ o ∈ row, ∃ (i : Nat) (x : Nat × List Nat), o = some i ∧ trajs[i]? = some x := by
    intro o ho
    obtain ⟨p, hp⟩ := List.mem_iff_getElem?.1 ho
    have hpl : p < N t := by
      have := (List.getElem?_eq_some_iff.1 hp).1
      omega
    obtain ⟨x, hx, hxp⟩ := List.mem_filterMap.1 ((hperm t ht).mem_iff.2 (List.mem_range.2 hpl))
    obtain ⟨i, hi⟩ := List.mem_iff_getElem?.1 hx
    have := w3 p i ((mem_writes trajs t p i).2 ⟨x, hi, hxp⟩)
    rw [hp] at this
    exact ⟨i, x, Option.some.inj this, hi⟩
  unfold trajLength
  rw [fillPos_eq, r1, ok_bind]
  have hi : idx r t = .ok row := by unfold idx; rw [w1]
  rw [hi, ok_bind, TreeIndex.mapM_ok_of _ (fun o => (trajs.getD (o.getD 0) (0, [])).2.length) row (by
    intro o ho
    obtain ⟨i, x, rfl, hx⟩ := hall o ho
    unfold idx
    dsimp only
    rw [hx, List.getD_eq_getElem?_getD, Option.getD_some, hx]
    rfl)]
  refine ⟨_, rfl, by simp [w2], ?_⟩
  intro i x p hx hp
  rw [List.getElem?_map, w3 p i ((mem_writes trajs t p i).2 ⟨x, hx, hp⟩)]
  simp only [Option.map_some, Option.getD_some]
  rw [List.getD_eq_getElem?_getD, hx]
  rfl

/-- two times of two particles, that exchange their indices; the second one is lost and found -/
example : let trajs := [((0 : Nat), [(0 : Nat), 1]), (0, [1]), (1, [0])]
    (∀ t < 2, (positions trajs t).Perm (List.range ((fun _ => 2) t))) ∧ ∀ x ∈ trajs, x.1 + x.2.length ≤ 2 := by
  intro trajs
  refine ⟨fun t ht => ?_, by decide⟩
  have : t = 0 ∨ t = 1 := by omega
  rcases this with rfl | rfl <;> decide

/-- **C215** Counterexample: a position that is not on a trajectory, here position 0 of two, makes the writing of the other one fail. -/
theorem C215_hole_counterexample : trajLength 1 [(0, [1])] 0 = .error .outOfRange := by
  decide +kernel

/-- **C215** Counterexample: when the times of the files begin at `offset ≥ 1`, the last of the `size` files is always an error. -/
theorem C215_offset_counterexample (size offset : Nat) (ho : 1 ≤ offset) (hs : 0 < size) (trajs : List (Nat × List Nat)) (out : List Nat) :
    trajLength size trajs (offset + size - 1) ≠ .ok out := by
  intro h
  unfold trajLength at h
  obtain ⟨a, ha, h⟩ := bind_ok.1 h
  have hl : a.length = size := by
    rw [fillPos_eq] at ha
    have key : ∀ (l : List (Nat × Nat × Nat)) (b c : List (List (Option Nat))), l.foldlM write b = .ok c → c.length = b.length := by
      intro l
      induction l with
      | nil => intro b c h; cases h; rfl
      | cons w l ih =>
        intro b c h
        rw [List.foldlM_cons] at h
        obtain ⟨d, h1, h2⟩ := bind_ok.1 h
        rw [ih d c h2]
        unfold write at h1
        obtain ⟨_, _, h1⟩ := bind_ok.1 h1
        obtain ⟨_, _, h1⟩ := bind_ok.1 h1
        unfold upd at h1
        split at h1
        · cases h1
          simp
        · cases h1
    rw [key _ _ _ ha, List.length_map, (framesizes_spec size trajs).1]
  obtain ⟨row, hr, _⟩ := bind_ok.1 h
  unfold idx at hr
  rw [List.getElem?_eq_none (by omega)] at hr
  cases hr

end Follow
end Py
end Colloids
