import Verif.MTraj.Model
import Verif.Traj.QueryLemmas

/-! # Helper lemmas for the multiscale trajectory index -/

namespace Colloids

theorem posAt_iff {ts : List Traj} {tr t p : Nat} {T : Traj} (h : ts[tr]? = some T) :
    posAt ts tr t = some p ↔ T.start ≤ t ∧ T.steps[t - T.start]? = some p := by
  unfold posAt; rw [h]
  simp only
  split <;> simp_all

theorem posAt_map_pushBack {ts ts' : List Traj} {tr p q T0 : Nat}
    (h : ts'[tr]? = (ts[tr]?).map (fun T => T.pushBack q)) (hT : 0 < T0)
    (hprev : posAt ts tr (T0 - 1) = some p) (hnone : posAt ts tr T0 = none) (t : Nat) :
    posAt ts' tr t = if t = T0 then some q else posAt ts tr t := by
  unfold posAt at *
  rw [h]
  cases hc : ts[tr]? with
  | none => rw [hc] at hprev; cases hprev
  | some T =>
    rw [hc] at hprev hnone
    simp only [Option.map_some, Traj.pushBack] at *
    have hend : T.start ≤ T0 - 1 ∧ T.start + T.steps.length = T0 := by
      split at hprev
      · obtain ⟨g1, -⟩ := List.getElem?_eq_some_iff.1 hprev
        rw [if_pos (by omega), List.getElem?_eq_none_iff] at hnone
        omega
      · cases hprev
    obtain ⟨hs, hend⟩ := hend
    split
    · rename_i hst
      by_cases ht : t = T0
      · subst ht
        rw [if_pos rfl, List.getElem?_append_right (by omega)]
        simp [show t - T.start - T.steps.length = 0 by omega]
      · rw [if_neg ht]
        by_cases hlt : t < T0
        · rw [List.getElem?_append_left (by omega)]
        · rw [List.getElem?_eq_none (by simp; omega), List.getElem?_eq_none (by omega)]
    · rw [if_neg (by omega)]

/-- Adding one frame keeps the agreement between frames and trajectories. -/
theorem agree_extend {bm : List Frame} {ts ts' : List Traj} {f : Frame}
    (hA : Agree bm ts) (hf : f.Inj)
    (hold : ∀ x ∈ f, x.2 < ts.length → 0 < bm.length ∧ ∃ p, posAt ts x.2 (bm.length - 1) = some p)
    (u1 : ∀ p tr, (p, tr) ∈ f → tr < ts.length → ts'[tr]? = (ts[tr]?).map (fun T => T.pushBack p))
    (u2 : ∀ tr, tr < ts.length → tr ∉ f.map Prod.snd → ts'[tr]? = ts[tr]?)
    (u3 : ∀ p tr, (p, tr) ∈ f → ts.length ≤ tr → ts'[tr]? = some (Traj.single bm.length p))
    (u4 : ∀ tr, ts.length ≤ tr → tr ∉ f.map Prod.snd → ts'[tr]? = none) :
    Agree (bm ++ [f]) ts' := by
  have hnone : ∀ tr, posAt ts tr bm.length = none := by
    intro tr
    cases hc : posAt ts tr bm.length with
    | none => rfl
    | some v => obtain ⟨h, -⟩ := (hA tr bm.length v).1 hc; omega
  have hout : ∀ tr t, ts.length ≤ tr → posAt ts tr t = none := by
    intro tr t h; unfold posAt; rw [List.getElem?_eq_none h]
  -- the new positions
  have key : ∀ tr t p, posAt ts' tr t = some p ↔
      (t = bm.length ∧ (p, tr) ∈ f) ∨ (t ≠ bm.length ∧ posAt ts tr t = some p) := by
    intro tr t p
    by_cases hin : tr ∈ f.map Prod.snd
    · obtain ⟨⟨q, tr'⟩, hq, htr'⟩ := List.mem_map.1 hin
      simp only at htr'; subst htr'
      have huniq : ∀ q', (q', tr') ∈ f → q' = q := fun q' h' =>
        congrArg Prod.fst (List.inj_on_of_nodup_map hf.2 h' hq rfl)
      by_cases hlt : tr' < ts.length
      · obtain ⟨hb, p0, hp0⟩ := hold _ hq hlt
        rw [posAt_map_pushBack (u1 q tr' hq hlt) hb hp0 (hnone tr') t]
        by_cases ht : t = bm.length
        · subst ht
          simp only [if_true, Option.some.injEq, true_and, ne_eq, not_true, false_and, or_false]
          exact ⟨fun h => h ▸ hq, fun h => (huniq p h).symm⟩
        · simp [ht]
      · have hlt' : ts.length ≤ tr' := by omega
        rw [hout tr' t hlt']
        have h3 := u3 q tr' hq hlt'
        rw [posAt_iff h3]
        simp only [Traj.single, reduceCtorEq, and_false, or_false]
        constructor
        · rintro ⟨hle, h⟩
          obtain ⟨g1, g2⟩ := List.getElem?_eq_some_iff.1 h
          simp at g1
          have ht : t = bm.length := by omega
          subst ht
          simp at g2; subst g2
          exact ⟨rfl, hq⟩
        · rintro ⟨rfl, hpf⟩
          simp [huniq p hpf]
    · have hno : ∀ q, (q, tr) ∉ f := fun q hq => hin (List.mem_map.2 ⟨_, hq, rfl⟩)
      have hsame : posAt ts' tr t = posAt ts tr t := by
        by_cases hlt : tr < ts.length
        · unfold posAt; rw [u2 tr hlt hin]
        · rw [hout tr t (by omega)]; unfold posAt; rw [u4 tr (by omega) hin]
      rw [hsame]
      constructor
      · intro h
        right
        refine ⟨?_, h⟩
        rintro rfl
        rw [hnone] at h; cases h
      · rintro (⟨-, h⟩ | ⟨-, h⟩)
        · exact absurd h (hno p)
        · exact h
  intro tr t p
  rw [key, hA tr t p]
  constructor
  · rintro (⟨rfl, h⟩ | ⟨-, g1, g2⟩)
    · exact ⟨by simp, by rwa [List.getElem_concat_length (by rfl)]⟩
    · exact ⟨by simp; omega, by rwa [List.getElem_append_left g1]⟩
  · rintro ⟨g1, g2⟩
    by_cases g1' : t < bm.length
    · right
      refine ⟨by omega, g1', ?_⟩
      rwa [List.getElem_append_left g1'] at g2
    · left
      have : t = bm.length := by simp at g1; omega
      subst this
      rw [List.getElem_concat_length (by rfl)] at g2
      exact ⟨rfl, g2⟩

/-- A list of trajectories of each position, as links (position, trajectory). -/
def rowFrame (row : List Nat) : Frame := row.zipIdx.map Prod.swap

theorem mem_rowFrame {row : List Nat} {p tr : Nat} : (p, tr) ∈ rowFrame row ↔ row[p]? = some tr := by
  unfold rowFrame
  rw [List.mem_map]
  constructor
  · rintro ⟨⟨a, b⟩, h1, h2⟩
    simp only [Prod.swap_prod_mk, Prod.mk.injEq] at h2
    obtain ⟨rfl, rfl⟩ := h2
    simpa [List.mk_mem_zipIdx_iff_getElem?] using h1
  · intro h
    exact ⟨(tr, p), by simpa [List.mk_mem_zipIdx_iff_getElem?] using h, rfl⟩

theorem rowFrame_inj {row : List Nat} : (rowFrame row).Inj ↔ row.Nodup := by
  unfold rowFrame Frame.Inj
  simp only [List.map_map, Function.comp_def, Prod.fst_swap, Prod.snd_swap, List.zipIdx_map_fst]
  rw [show (row.zipIdx.map fun x => x.2) = row.zipIdx.map Prod.snd from rfl, TrajMap.zipIdx_snd]
  simp [List.nodup_range']

theorem rowFrame_snd (row : List Nat) : (rowFrame row).map Prod.snd = row := by
  unfold rowFrame
  simp [List.map_map, Function.comp_def, List.zipIdx_map_fst]

/-- Forget the sign of the start time. -/
def MTraj.toTraj (T : MTraj) : Traj := ⟨T.start.toNat, T.steps⟩

theorem MTraj.toTraj_pushBack (T : MTraj) (p : Nat) :
    (T.pushBack p).toTraj = T.toTraj.pushBack p := rfl

/-- Invariant of the index. -/
structure MIndex.Good (ti : MIndex) : Prop where
  frames : 0 < ti.pos2tr.length
  agree : Agree (ti.pos2tr.map rowFrame) (ti.tr2pos.map MTraj.toTraj)
  nodup : ∀ row ∈ ti.pos2tr, row.Nodup
  nonempty : ∀ T ∈ ti.tr2pos, T.steps ≠ []
  start : ∀ T ∈ ti.tr2pos, 0 ≤ T.start

namespace MIndex
open MIndexM

@[simp] theorem run_pure (a : α) (s : MIndex) : (pure a : MIndexM α) s = (.ok a, s) := rfl

theorem run_bind_ok {x : MIndexM α} {f : α → MIndexM β} {s s' : MIndex} {a : α}
    (h : x s = (.ok a, s')) : (x >>= f) s = f a s' := by
  simp only [bind]; rw [h]

theorem run_bind_error {x : MIndexM α} {f : α → MIndexM β} {s s' : MIndex} {e : Fault}
    (h : x s = (.error e, s')) : (x >>= f) s = (.error e, s') := by
  simp only [bind]; rw [h]

theorem run_lift (r : R α) (s : MIndex) : (lift r : MIndexM α) s = (r, s) := rfl

theorem run_bind_lift {r : R α} {f : α → MIndexM β} {s : MIndex} {a : α} (h : r = .ok a) :
    (lift r >>= f) s = f a s := run_bind_ok (by rw [run_lift, h])

theorem init_good (n : Nat) : (init n).Good := by
  refine ⟨by simp [init], ?_, ?_, ?_, ?_⟩
  · intro tr t p
    have hT : ((init n).tr2pos.map MTraj.toTraj)[tr]? =
        if tr < n then some (⟨0, [tr]⟩ : Traj) else none := by
      simp only [init, List.map_map, List.getElem?_map]
      by_cases h : tr < n
      · simp [h, MTraj.mk1, MTraj.toTraj]
      · simp [h, List.getElem?_eq_none]
    unfold posAt
    rw [hT]
    by_cases h : tr < n
    · simp only [h, if_true, Nat.zero_le, Nat.sub_zero]
      constructor
      · intro hp
        obtain ⟨g1, g2⟩ := List.getElem?_eq_some_iff.1 hp
        simp at g1; subst g1
        simp at g2; subst g2
        refine ⟨by simp [init], ?_⟩
        simp only [init, List.map_cons, List.getElem_cons_zero]
        rw [mem_rowFrame]; simp [h]
      · rintro ⟨ht, hm⟩
        have : t = 0 := by simp [init] at ht; omega
        subst this
        simp only [init, List.map_cons, List.getElem_cons_zero] at hm
        rw [mem_rowFrame] at hm
        obtain ⟨g1, g2⟩ := List.getElem?_eq_some_iff.1 hm
        simp at g2
        simp [g2]
    · simp only [h, if_false, reduceCtorEq, false_iff]
      rintro ⟨ht, hm⟩
      have : t = 0 := by simp [init] at ht; omega
      subst this
      simp only [init, List.map_cons, List.getElem_cons_zero] at hm
      rw [mem_rowFrame] at hm
      obtain ⟨g1, g2⟩ := List.getElem?_eq_some_iff.1 hm
      simp at g1 g2
      omega
  · simp [init, List.nodup_range]
  · simp [init, MTraj.mk1]
  · simp [init, MTraj.mk1]

/-- In a good index, positions and trajectories say the same. -/
theorem Good.pos_iff {ti : MIndex} (h : ti.Good) {tr t p : Nat} :
    posAt (ti.tr2pos.map MTraj.toTraj) tr t = some p ↔
      ∃ row, ti.pos2tr[t]? = some row ∧ row[p]? = some tr := by
  rw [h.agree tr t p]
  constructor
  · rintro ⟨ht, hm⟩
    have ht' : t < ti.pos2tr.length := by simpa using ht
    refine ⟨ti.pos2tr[t], by simp [ht'], ?_⟩
    rw [List.getElem_map, mem_rowFrame] at hm
    exact hm
  · rintro ⟨row, h1, h2⟩
    obtain ⟨ht, rfl⟩ := List.getElem?_eq_some_iff.1 h1
    exact ⟨by simpa using ht, by rw [List.getElem_map, mem_rowFrame]; exact h2⟩

/-- A good index extended by a frame: what the final lists must satisfy. -/
theorem Good.extend {ti : MIndex} (h : ti.Good) {row : List Nat} {trs : List MTraj}
    (hrow : row.Nodup)
    (hold : ∀ p tr : Nat, row[p]? = some tr → tr < ti.tr2pos.length →
      ∃ (last : List Nat) (q : Nat), ti.pos2tr[ti.pos2tr.length - 1]? = some last ∧ last[q]? = some tr)
    (u1 : ∀ p tr : Nat, row[p]? = some tr → tr < ti.tr2pos.length →
      trs[tr]? = (ti.tr2pos[tr]?).map (fun T => T.pushBack p))
    (u2 : ∀ tr, tr < ti.tr2pos.length → tr ∉ row → trs[tr]? = ti.tr2pos[tr]?)
    (u3 : ∀ p tr : Nat, row[p]? = some tr → ti.tr2pos.length ≤ tr →
      trs[tr]? = some (MTraj.mk1 (ti.pos2tr.length : Int) p))
    (u4 : ∀ tr, ti.tr2pos.length ≤ tr → tr ∉ row → trs[tr]? = none) :
    Good { tr2pos := trs, pos2tr := ti.pos2tr ++ [row] } := by
  have hcases : ∀ (tr : Nat) (T : MTraj), trs[tr]? = some T →
      (∃ T0, ti.tr2pos[tr]? = some T0 ∧ (T = T0 ∨ ∃ p, T = T0.pushBack p)) ∨
      ∃ p, T = MTraj.mk1 (ti.pos2tr.length : Int) p := by
    intro tr T hT
    by_cases hin : tr ∈ row
    · obtain ⟨p, hp⟩ := List.mem_iff_getElem?.1 hin
      by_cases hlt : tr < ti.tr2pos.length
      · left
        rw [u1 p tr hp hlt, List.getElem?_eq_getElem hlt] at hT
        simp only [Option.map_some, Option.some.injEq] at hT
        exact ⟨_, List.getElem?_eq_getElem hlt, .inr ⟨p, hT.symm⟩⟩
      · right
        rw [u3 p tr hp (by omega)] at hT
        exact ⟨p, (Option.some.inj hT).symm⟩
    · by_cases hlt : tr < ti.tr2pos.length
      · left
        rw [u2 tr hlt hin, List.getElem?_eq_getElem hlt] at hT
        exact ⟨_, List.getElem?_eq_getElem hlt, .inl (Option.some.inj hT).symm⟩
      · rw [u4 tr (by omega) hin] at hT; cases hT
  refine ⟨by simp, ?_, ?_, ?_, ?_⟩
  · simp only [List.map_append, List.map_cons, List.map_nil]
    apply agree_extend h.agree (rowFrame_inj.2 hrow)
    · rintro ⟨p, tr⟩ hx hlt
      rw [mem_rowFrame] at hx
      simp only [List.length_map] at hlt ⊢
      obtain ⟨last, q, h1, h2⟩ := hold p tr hx hlt
      exact ⟨h.frames, q, h.pos_iff.2 ⟨last, h1, h2⟩⟩
    · intro p tr hx hlt
      rw [mem_rowFrame] at hx
      rw [List.length_map] at hlt
      rw [List.getElem?_map, List.getElem?_map, u1 p tr hx hlt, Option.map_map, Option.map_map]
      rfl
    · intro tr hlt hin
      rw [rowFrame_snd] at hin
      rw [List.length_map] at hlt
      rw [List.getElem?_map, List.getElem?_map, u2 tr hlt hin]
    · intro p tr hx hlt
      rw [mem_rowFrame] at hx
      rw [List.length_map] at hlt
      rw [List.getElem?_map, u3 p tr hx hlt]
      simp [MTraj.toTraj, MTraj.mk1, Traj.single]
    · intro tr hlt hin
      rw [rowFrame_snd] at hin
      rw [List.length_map] at hlt
      rw [List.getElem?_map, u4 tr hlt hin]; rfl
  · intro r hr
    rcases List.mem_append.1 hr with hr | hr
    · exact h.nodup r hr
    · simp at hr; subst hr; exact hrow
  · intro T hT
    obtain ⟨tr, htr⟩ := List.mem_iff_getElem?.1 hT
    rcases hcases tr T htr with ⟨T0, h0, rfl | ⟨p, rfl⟩⟩ | ⟨p, rfl⟩
    · exact h.nonempty _ (List.mem_of_getElem? h0)
    · simp [MTraj.pushBack]
    · simp [MTraj.mk1]
  · intro T hT
    obtain ⟨tr, htr⟩ := List.mem_iff_getElem?.1 hT
    rcases hcases tr T htr with ⟨T0, h0, rfl | ⟨p, rfl⟩⟩ | ⟨p, rfl⟩
    · exact h.start _ (List.mem_of_getElem? h0)
    · exact h.start T0 (List.mem_of_getElem? h0)
    · simp [MTraj.mk1]

theorem forAll_append (f : β → α → MIndexM β) (l1 l2 : List α) (b : β) (s : MIndex) :
    forAll f (l1 ++ l2) b s = match forAll f l1 b s with
      | (.ok b', s') => forAll f l2 b' s'
      | (.error e, s') => (.error e, s') := by
  induction l1 generalizing b s with
  | nil => simp [forAll]
  | cons a l1 ih =>
    simp only [List.cons_append, forAll]
    cases h : f b a s with
    | mk r s' =>
      cases r with
      | ok b' => rw [run_bind_ok h, run_bind_ok h]; exact ih b' s'
      | error e => rw [run_bind_error h, run_bind_error h]

theorem forAll_singleton (f : β → α → MIndexM β) (a : α) (b : β) (s : MIndex) :
    forAll f [a] b s = f b a s := by
  simp only [forAll]
  cases h : f b a s with
  | mk r s' =>
    cases r with
    | ok b' => rw [run_bind_ok h]; rfl
    | error e => rw [run_bind_error h]

/-- State of the linking loop once the pairs `links` have been made. -/
structure LinkInv (old : List MTraj) (prev : List Nat) (n : Nat) (links : Frame)
    (fu tu : List Bool) (trs : List MTraj) (cur : List Nat) : Prop where
  fuLen : fu.length = prev.length
  tuLen : tu.length = n
  curLen : cur.length = n
  trsLen : trs.length = old.length
  fu_iff : ∀ a, a < prev.length → (fu[a]? = some true ↔ a ∈ links.map Prod.fst)
  tu_iff : ∀ b, b < n → (tu[b]? = some true ↔ b ∈ links.map Prod.snd)
  cur_eq : ∀ a b, (a, b) ∈ links → cur[b]? = prev[a]?
  upd : ∀ a b tr, (a, b) ∈ links → prev[a]? = some tr →
    trs[tr]? = (old[tr]?).map (fun T => T.pushBack b)
  same : ∀ tr, (∀ a b, (a, b) ∈ links → prev[a]? ≠ some tr) → trs[tr]? = old[tr]?

theorem linkStep_skip {fu tu : List Bool} {a b : Nat} {s : MIndex} (ha : a < fu.length)
    (hb : b < tu.length) (h : fu[a]? = some true ∨ tu[b]? = some true) :
    linkStep (fu, tu) (a, b) s = (.ok (fu, tu), s) := by
  unfold linkStep
  dsimp only
  rw [run_bind_lift (getR_of_lt ha)]
  by_cases hfu : fu[a] = true
  · rw [if_pos hfu]; rfl
  · rw [if_neg hfu]
    rw [run_bind_lift (getR_of_lt hb)]
    rw [if_pos]
    · rfl
    · rcases h with h | h
      · rw [List.getElem?_eq_getElem ha] at h; exact absurd (Option.some.inj h) hfu
      · rw [List.getElem?_eq_getElem hb] at h; exact Option.some.inj h

theorem linkStep_do {fu tu : List Bool} {a b tr : Nat} {trs : List MTraj} {P : List (List Nat)}
    {prev cur : List Nat} (ha : fu[a]? = some false) (hb : tu[b]? = some false)
    (hprev : prev[a]? = some tr) (hcur : b < cur.length) (htr : tr < trs.length) :
    linkStep (fu, tu) (a, b) ⟨trs, (P ++ [prev]) ++ [cur]⟩ =
      (.ok (fu.set a true, tu.set b true),
        ⟨trs.modify tr (fun T => T.pushBack b), (P ++ [prev]) ++ [cur.set b tr]⟩) := by
  unfold linkStep
  dsimp only
  rw [run_bind_lift (getR_ok.2 ha)]
  simp only [Bool.false_eq_true, if_false]
  rw [run_bind_lift (getR_ok.2 hb)]
  simp only [Bool.false_eq_true, if_false]
  rw [run_bind_ok (a := (⟨trs, (P ++ [prev]) ++ [cur]⟩ : MIndex))
    (s' := ⟨trs, (P ++ [prev]) ++ [cur]⟩) (by rfl)]
  dsimp only
  have hp : getR (P ++ [prev] ++ [cur]) ((P ++ [prev] ++ [cur]).length - 2) = .ok prev := by
    rw [getR_ok]
    rw [List.getElem?_append_left (by simp)]
    simp
  rw [run_bind_lift hp, run_bind_lift (getR_ok.2 hprev), run_bind_lift (backR_append _ _),
    run_bind_lift (setR_ok.2 ⟨hcur, rfl⟩)]
  rw [run_bind_ok (a := ()) (s' := ⟨trs, (P ++ [prev] ++ [cur]).set
    ((P ++ [prev] ++ [cur]).length - 1) (cur.set b tr)⟩) (by rfl)]
  rw [run_bind_lift (modifyR_ok.2 ⟨htr, rfl⟩)]
  rw [run_bind_ok (a := ()) (s' := ⟨trs.modify tr (fun T => T.pushBack b), (P ++ [prev] ++ [cur]).set
    ((P ++ [prev] ++ [cur]).length - 1) (cur.set b tr)⟩) (by rfl)]
  simp only [run_pure, Prod.mk.injEq, true_and]
  congr 1
  rw [List.set_append_right _ _ (by simp)]
  simp

theorem linkLoop {D : Type} {old : List MTraj} {P : List (List Nat)} {prev : List Nat} {n : Nat}
    (hprev : prev.Nodup) (hlt : ∀ tr ∈ prev, tr < old.length) (bs : List (D × (Nat × Nat))) :
    (∀ x ∈ bs, x.2.1 < prev.length ∧ x.2.2 < n) →
    ∃ fu tu trs cur,
      forAll linkStep (bs.map Prod.snd) (List.replicate prev.length false, List.replicate n false)
        ⟨old, (P ++ [prev]) ++ [List.replicate n 0]⟩ =
        (.ok (fu, tu), ⟨trs, (P ++ [prev]) ++ [cur]⟩) ∧
      LinkInv old prev n (TrajMap.greedy bs) fu tu trs cur := by
  induction bs using List.reverseRecOn with
  | nil =>
    intro _
    refine ⟨_, _, _, _, rfl, ⟨by simp, by simp, by simp, rfl, ?_, ?_, ?_, ?_, ?_⟩⟩ <;>
      simp [TrajMap.greedy, List.getElem?_replicate]
  | append_singleton bs x ih =>
    intro hb
    obtain ⟨fu, tu, trs, cur, h1, hi⟩ := ih (fun y hy => hb y (by simp [hy]))
    obtain ⟨ha, hb'⟩ := hb x (by simp)
    obtain ⟨d, a, b⟩ := x
    simp only at ha hb'
    rw [List.map_append, List.map_cons, List.map_nil]
    simp only [forAll_append, h1, forAll_singleton]
    rw [TrajMap.greedy_concat]
    have ha' : a < fu.length := by rw [hi.fuLen]; exact ha
    have hb'' : b < tu.length := by rw [hi.tuLen]; exact hb'
    by_cases hused : a ∈ (TrajMap.greedy bs).map Prod.fst ∨ b ∈ (TrajMap.greedy bs).map Prod.snd
    · rw [linkStep_skip ha' hb'' (by
        rcases hused with h | h
        · exact .inl ((hi.fu_iff a ha).2 h)
        · exact .inr ((hi.tu_iff b hb').2 h))]
      refine ⟨fu, tu, trs, cur, rfl, ?_⟩
      have : (TrajMap.greedy bs).link (a, b) = TrajMap.greedy bs := by
        unfold Frame.link
        rw [if_pos]
        simp only [List.any_eq_true, Bool.or_eq_true, beq_iff_eq]
        rcases hused with h | h
        · obtain ⟨y, hy, h⟩ := List.mem_map.1 h; exact ⟨y, hy, .inl h⟩
        · obtain ⟨y, hy, h⟩ := List.mem_map.1 h; exact ⟨y, hy, .inr h⟩
      simp only
      rw [this]; exact hi
    · rw [not_or] at hused
      have hfa : fu[a]? = some false := by
        rw [List.getElem?_eq_getElem ha']
        cases hc : fu[a] with
        | false => rfl
        | true => exact absurd ((hi.fu_iff a ha).1 (by rw [List.getElem?_eq_getElem ha', hc])) hused.1
      have htb : tu[b]? = some false := by
        rw [List.getElem?_eq_getElem hb'']
        cases hc : tu[b] with
        | false => rfl
        | true => exact absurd ((hi.tu_iff b hb').1 (by rw [List.getElem?_eq_getElem hb'', hc])) hused.2
      have hpa : prev[a]? = some prev[a] := List.getElem?_eq_getElem ha
      have htr : prev[a] < trs.length := by rw [hi.trsLen]; exact hlt _ (List.getElem_mem ha)
      rw [linkStep_do hfa htb hpa (by rw [hi.curLen]; exact hb') htr]
      refine ⟨_, _, _, _, rfl, ?_⟩
      simp only
      rw [Frame.link_fresh hused.1 hused.2]
      have hinj : ∀ a', prev[a']? = some prev[a] → a' = a := by
        intro a' h'
        obtain ⟨g1, g2⟩ := List.getElem?_eq_some_iff.1 h'
        exact (List.Nodup.getElem_inj_iff hprev).1 g2
      refine ⟨by simp [hi.fuLen], by simp [hi.tuLen], by simp [hi.curLen], by simp [hi.trsLen],
        ?_, ?_, ?_, ?_, ?_⟩
      · intro a' ha2
        rw [List.getElem?_set]
        by_cases he : a = a'
        · subst he; simp [ha']
        · rw [if_neg he, hi.fu_iff a' ha2]
          simp [Ne.symm he]
      · intro b' hb2
        rw [List.getElem?_set]
        by_cases he : b = b'
        · subst he; simp [hb'']
        · rw [if_neg he, hi.tu_iff b' hb2]
          simp [Ne.symm he]
      · intro a' b' hm
        rw [List.getElem?_set]
        rcases List.mem_append.1 hm with hm | hm
        · have : b ≠ b' := by
            rintro rfl; exact hused.2 (List.mem_map.2 ⟨_, hm, rfl⟩)
          rw [if_neg this]; exact hi.cur_eq a' b' hm
        · simp at hm
          obtain ⟨rfl, rfl⟩ := hm
          rw [if_pos rfl, if_pos (by rw [hi.curLen]; exact hb'), hpa]
      · intro a' b' tr hm htr'
        rw [List.getElem?_modify]
        rcases List.mem_append.1 hm with hm | hm
        · have : prev[a] ≠ tr := by
            rintro rfl
            exact hused.1 (List.mem_map.2 ⟨(a', b'), hm, hinj a' htr'⟩)
          simp only [this, if_false]
          rw [hi.upd a' b' tr hm htr']
          simp
        · simp at hm
          obtain ⟨rfl, rfl⟩ := hm
          rw [hpa] at htr'
          have := Option.some.inj htr'
          subst this
          simp only [if_true]
          rw [hi.same prev[a'] (fun a2 b2 hm2 h2 =>
            hused.1 (List.mem_map.2 ⟨(a2, b2), hm2, hinj a2 h2⟩))]
          simp
      · intro tr hall
        have h1 : prev[a] ≠ tr := by
          intro h; exact hall a b (by simp) (by rw [hpa, h])
        rw [List.getElem?_modify]
        simp only [h1, if_false]
        rw [hi.same tr (fun a' b' hm => hall a' b' (List.mem_append_left _ hm))]
        simp

theorem newStep_skip {tu : List Bool} {p : Nat} {s : MIndex} (h : tu[p]? = some true) :
    newStep tu p s = (.ok (), s) := by
  unfold newStep
  rw [run_bind_lift (getR_ok.2 h)]
  rfl

theorem newStep_do {tu : List Bool} {p : Nat} {trs : List MTraj} {Q : List (List Nat)}
    {cur : List Nat} (h : tu[p]? = some false) (hcur : p < cur.length) :
    newStep tu p ⟨trs, Q ++ [cur]⟩ =
      (.ok (), ⟨trs ++ [MTraj.mk1 (Q.length : Int) p], Q ++ [cur.set p trs.length]⟩) := by
  unfold newStep
  rw [run_bind_lift (getR_ok.2 h)]
  simp only [Bool.false_eq_true, if_false]
  rw [run_bind_ok (a := (⟨trs, Q ++ [cur]⟩ : MIndex)) (s' := ⟨trs, Q ++ [cur]⟩) (by rfl)]
  dsimp only
  rw [run_bind_lift (backR_append _ _), run_bind_lift (setR_ok.2 ⟨hcur, rfl⟩)]
  rw [run_bind_ok (a := ()) (s' := ⟨trs, (Q ++ [cur]).set ((Q ++ [cur]).length - 1)
    (cur.set p trs.length)⟩) (by rfl)]
  unfold setTr
  simp only [Prod.mk.injEq, true_and, List.length_append, List.length_singleton]
  congr 1
  · simp
  · rw [List.set_append_right _ _ (by simp)]
    simp

/-- The positions that the loop has to give a new trajectory. -/
def unlinked (tu : List Bool) (m : Nat) : List Nat :=
  (List.range m).filter (fun p => decide (tu[p]? = some false))

theorem newLoop {tu : List Bool} {trs : List MTraj} {Q : List (List Nat)} {cur : List Nat}
    (hlen : cur.length = tu.length) : ∀ m, m ≤ tu.length →
    ∃ cur', forAll (fun _ p => newStep tu p) (List.range m) () ⟨trs, Q ++ [cur]⟩ =
      (.ok (), ⟨trs ++ (unlinked tu m).map (MTraj.mk1 (Q.length : Int)), Q ++ [cur']⟩) ∧
      cur'.length = cur.length ∧
      (∀ p : Nat, p ∉ unlinked tu m → cur'[p]? = cur[p]?) ∧
      (∀ i p : Nat, (unlinked tu m)[i]? = some p → cur'[p]? = some (trs.length + i)) := by
  intro m
  induction m with
  | zero => intro _; exact ⟨cur, by simp [unlinked, forAll], rfl, by simp [unlinked], by simp [unlinked]⟩
  | succ m ih =>
    intro hm
    obtain ⟨cur', h1, h2, h3, h4⟩ := ih (by omega)
    have hu : unlinked tu (m + 1) = unlinked tu m ++ if tu[m]? = some false then [m] else [] := by
      unfold unlinked
      rw [List.range_succ, List.filter_append]
      congr 1
      simp [List.filter_singleton]
    have hnm : m ∉ unlinked tu m := by simp [unlinked]
    rw [List.range_succ, forAll_append]
    simp only [h1, forAll_singleton]
    have hm' : m < tu.length := by omega
    by_cases hf : tu[m]? = some false
    · rw [newStep_do hf (by omega)]
      rw [if_pos hf] at hu
      refine ⟨cur'.set m (trs ++ (unlinked tu m).map (MTraj.mk1 (Q.length : Int))).length, ?_,
        by simpa using h2, ?_, ?_⟩
      · rw [hu]; simp
      · intro p hp
        rw [hu, List.mem_append, not_or] at hp
        have : m ≠ p := fun h => hp.2 (by simp [h])
        rw [List.getElem?_set, if_neg this]
        exact h3 p hp.1
      · intro i p hi
        rw [hu] at hi
        rw [List.getElem?_set]
        by_cases hlt : i < (unlinked tu m).length
        · rw [List.getElem?_append_left hlt] at hi
          have : m ≠ p := by
            rintro rfl; exact hnm (List.mem_of_getElem? hi)
          rw [if_neg this]
          exact h4 i p hi
        · have hi' : i = (unlinked tu m).length := by
            obtain ⟨g, -⟩ := List.getElem?_eq_some_iff.1 hi
            simp at g; omega
          subst hi'
          rw [List.getElem?_concat_length] at hi
          have := Option.some.inj hi
          subst this
          rw [if_pos rfl, if_pos (by omega)]
          simp
    · have htrue : tu[m]? = some true := by
        rw [List.getElem?_eq_getElem hm'] at hf ⊢
        cases hc : tu[m] with
        | true => rfl
        | false => rw [hc] at hf; exact absurd rfl hf
      rw [newStep_skip htrue]
      rw [if_neg hf, List.append_nil] at hu
      rw [hu]
      exact ⟨cur', rfl, h2, h3, h4⟩

theorem run_bind_inv {x : MIndexM α} {f : α → MIndexM β} {s s'' : MIndex} {b : β}
    (h : (x >>= f) s = (.ok b, s'')) : ∃ a s', x s = (.ok a, s') ∧ f a s' = (.ok b, s'') := by
  cases hx : x s with
  | mk r s' =>
    cases r with
    | ok a => exact ⟨a, s', rfl, by rwa [run_bind_ok hx] at h⟩
    | error e => rw [run_bind_error hx] at h; simp at h

theorem run_lift_inv {r : R α} {s s' : MIndex} {a : α} (h : lift r s = (.ok a, s')) :
    r = .ok a ∧ s' = s := by
  rw [run_lift] at h
  simp only [Prod.mk.injEq] at h
  exact ⟨h.1, h.2.symm⟩

theorem linkStep_inv {u u' : List Bool × List Bool} {b : Nat × Nat} {s s' : MIndex}
    (h : linkStep u b s = (.ok u', s')) : b.1 < u.1.length ∧ u'.1.length = u.1.length := by
  unfold linkStep at h
  obtain ⟨fu, s1, h1, h3⟩ := run_bind_inv h
  obtain ⟨h2, -⟩ := run_lift_inv h1
  have hb : b.1 < u.1.length := (List.getElem?_eq_some_iff.1 (getR_ok.1 h2)).1
  refine ⟨hb, ?_⟩
  split at h3
  · simp only [run_pure, Prod.mk.injEq, Except.ok.injEq] at h3; rw [h3.1]
  · obtain ⟨tu, s2, -, h4⟩ := run_bind_inv h3
    split at h4
    · simp only [run_pure, Prod.mk.injEq, Except.ok.injEq] at h4; rw [h4.1]
    · obtain ⟨_, _, -, k1⟩ := run_bind_inv h4
      obtain ⟨_, _, -, k2⟩ := run_bind_inv k1
      obtain ⟨_, _, -, k3⟩ := run_bind_inv k2
      obtain ⟨_, _, -, k4⟩ := run_bind_inv k3
      obtain ⟨_, _, -, k5⟩ := run_bind_inv k4
      obtain ⟨_, _, -, k6⟩ := run_bind_inv k5
      obtain ⟨_, _, -, k7⟩ := run_bind_inv k6
      obtain ⟨_, _, -, k8⟩ := run_bind_inv k7
      simp only [run_pure, Prod.mk.injEq, Except.ok.injEq] at k8
      rw [← k8.1]; simp

theorem linkLoop_inv {bs : List (Nat × Nat)} {u u' : List Bool × List Bool} {s s' : MIndex}
    (h : forAll linkStep bs u s = (.ok u', s')) : ∀ x ∈ bs, x.1 < u.1.length := by
  induction bs generalizing u s with
  | nil => simp
  | cons b bs ih =>
    simp only [forAll] at h
    obtain ⟨u1, s1, h1, h2⟩ := run_bind_inv h
    obtain ⟨g1, g2⟩ := linkStep_inv h1
    intro x hx
    rcases List.mem_cons.1 hx with rfl | hx
    · exact g1
    · rw [← g2]; exact ih h2 x hx

theorem mem_sortedBonds {D : Type} [LE D] [DecidableLE D] {ds : List D} {pf pt : List Nat} {x} :
    x ∈ sortedBonds ds pf pt ↔
      ∃ i : Nat, ds[i]? = some x.1 ∧ pf[i]? = some x.2.1 ∧ pt[i]? = some x.2.2 := by
  unfold sortedBonds
  rw [List.mem_mergeSort, List.mem_iff_getElem?]
  simp only [List.getElem?_zip_eq_some]

theorem sortedBonds_sorted {D : Type} [LinearOrder D] (ds : List D) (pf pt : List Nat) :
    (sortedBonds ds pf pt).Pairwise (fun a b => a.1 ≤ b.1) := by
  have := List.pairwise_mergeSort (le := fun (a b : D × (Nat × Nat)) => decide (a.1 ≤ b.1))
    (by intro a b c; simpa using le_trans) (by intro a b; simpa using le_total a.1 b.1)
    (ds.zip (pf.zip pt))
  simpa [sortedBonds] using this

/-- Arguments that `add_Frame` checks (the first three) or relies on (the last). -/
structure LinkArgs {D : Type} (prevSize n : Nat) (ds : List D) (pf pt : List Nat) : Prop where
  len1 : ds.length = pf.length
  len2 : pf.length = pt.length
  to_lt : ∀ p ∈ pt, p < n
  from_lt : ∀ p ∈ pf, p < prevSize

/-- Everything about one accepted frame. -/
theorem addFrameLinks_ok {D : Type} [LinearOrder D] {ti : MIndex} (hg : ti.Good) {prev : List Nat}
    (hprev : ti.pos2tr.getLast? = some prev) {n : Nat} {ds : List D} {pf pt : List Nat}
    (ha : LinkArgs prev.length n ds pf pt) :
    ∃ row trs, addFrameLinks n ds pf pt ti =
        (.ok (), { tr2pos := trs, pos2tr := ti.pos2tr ++ [row] }) ∧
      row.length = n ∧
      Good { tr2pos := trs, pos2tr := ti.pos2tr ++ [row] } ∧
      (∀ a b, (a, b) ∈ TrajMap.greedy (sortedBonds ds pf pt) → row[b]? = prev[a]?) ∧
      (∀ i p : Nat, ((List.range n).filter
          (fun b => b ∉ (TrajMap.greedy (sortedBonds ds pf pt)).map Prod.snd))[i]? = some p →
        row[p]? = some (ti.tr2pos.length + i)) ∧
      trs.length = ti.tr2pos.length + ((List.range n).filter
          (fun b => b ∉ (TrajMap.greedy (sortedBonds ds pf pt)).map Prod.snd)).length := by
  obtain ⟨P, hP⟩ : ∃ P, ti.pos2tr = P ++ [prev] := by
    rw [List.getLast?_eq_some_iff] at hprev; exact hprev
  have hprevmem : prev ∈ ti.pos2tr := by rw [hP]; simp
  have hlast : ti.pos2tr[ti.pos2tr.length - 1]? = some prev := by
    rw [← List.getLast?_eq_getElem?]; exact hprev
  have hprevlt : ∀ tr ∈ prev, tr < ti.tr2pos.length := by
    intro tr htr
    obtain ⟨p, hp⟩ := List.mem_iff_getElem?.1 htr
    have := hg.pos_iff.2 ⟨prev, hlast, hp⟩
    unfold posAt at this
    by_contra hc
    rw [List.getElem?_eq_none (by simpa using hc)] at this
    cases this
  have hmem : ∀ x ∈ sortedBonds ds pf pt, x.2.1 < prev.length ∧ x.2.2 < n := by
    intro x hx
    obtain ⟨i, h1, h2, h3⟩ := mem_sortedBonds.1 hx
    exact ⟨ha.from_lt _ (List.mem_of_getElem? h2), ha.to_lt _ (List.mem_of_getElem? h3)⟩
  obtain ⟨fu, tu, trs, cur, h1, hi⟩ := linkLoop (old := ti.tr2pos) (P := P) (n := n)
    (hg.nodup _ hprevmem) hprevlt (sortedBonds ds pf pt) hmem
  obtain ⟨cur', n1, n2, n3, n4⟩ := newLoop (trs := trs) (Q := P ++ [prev]) (cur := cur)
    (by rw [hi.curLen, hi.tuLen]) tu.length le_rfl
  set links := TrajMap.greedy (sortedBonds ds pf pt) with hlinks
  have hunl : unlinked tu tu.length = (List.range n).filter (fun b => b ∉ links.map Prod.snd) := by
    unfold unlinked
    rw [hi.tuLen]
    apply List.filter_congr
    intro b hb
    have hb' : b < n := by simpa using hb
    have hb'' : b < tu.length := by rw [hi.tuLen]; exact hb'
    have := hi.tu_iff b hb'
    rw [List.getElem?_eq_getElem hb''] at this ⊢
    cases hc : tu[b] with
    | true => rw [hc] at this; simp [this.1 rfl]
    | false =>
      rw [hc] at this
      have h' : b ∉ links.map Prod.snd := fun hh => by simpa using this.2 hh
      simp [h']
  rw [hunl] at n1 n3 n4
  set unl := (List.range n).filter (fun b => b ∉ links.map Prod.snd) with hunl_def
  have hlinklt : ∀ x ∈ links, x.1 < prev.length ∧ x.2 < n := by
    intro x hx
    obtain ⟨d, hd⟩ := TrajMap.greedy_sub _ hx
    exact hmem _ hd
  have hinj : links.Inj := TrajMap.greedy_inj _
  have r1 : ∀ a b, (a, b) ∈ links → cur'[b]? = prev[a]? := by
    intro a b hab
    rw [n3 b, hi.cur_eq a b hab]
    rw [hunl_def, List.mem_filter]
    have : b ∈ links.map Prod.snd := List.mem_map.2 ⟨_, hab, rfl⟩
    simp only [decide_not, Bool.not_eq_true', decide_eq_false_iff_not, not_and, not_not]
    intro _; exact this
  have hlen : cur'.length = n := by rw [n2, hi.curLen]
  -- what each entry is
  have hrow : ∀ p tr : Nat, cur'[p]? = some tr →
      (∃ a, (a, p) ∈ links ∧ prev[a]? = some tr) ∨
      (∃ i, unl[i]? = some p ∧ tr = ti.tr2pos.length + i) := by
    intro p tr hp
    have hpn : p < n := by rw [← hlen]; exact (List.getElem?_eq_some_iff.1 hp).1
    by_cases hl : p ∈ links.map Prod.snd
    · obtain ⟨⟨a, b⟩, hab, rfl⟩ := List.mem_map.1 hl
      left
      refine ⟨a, hab, ?_⟩
      rw [← r1 a b hab]; exact hp
    · right
      have : p ∈ unl := by rw [hunl_def, List.mem_filter]; simp [hpn]; simpa using hl
      obtain ⟨i, hi'⟩ := List.mem_iff_getElem?.1 this
      refine ⟨i, hi', ?_⟩
      rw [n4 i p hi', hi.trsLen] at hp
      exact (Option.some.inj hp).symm
  have hunlnd : unl.Nodup := List.nodup_range.filter _
  have htrslt : ∀ a b tr, (a, b) ∈ links → prev[a]? = some tr → tr < ti.tr2pos.length :=
    fun a b tr _ h => hprevlt tr (List.mem_of_getElem? h)
  have hnodup : cur'.Nodup := by
    rw [List.nodup_iff_getElem?_ne_getElem?]
    intro p q hpq hq heq
    rw [List.getElem?_eq_getElem hq] at heq
    have hq' : cur'[q]? = some cur'[q] := List.getElem?_eq_getElem hq
    rcases hrow p _ heq with ⟨a, ha1, ha2⟩ | ⟨i, ha1, ha2⟩ <;>
    rcases hrow q _ hq' with ⟨b, hb1, hb2⟩ | ⟨j, hb1, hb2⟩
    · have hab : a = b := by
        obtain ⟨g1, g2⟩ := List.getElem?_eq_some_iff.1 ha2
        obtain ⟨g3, g4⟩ := List.getElem?_eq_some_iff.1 hb2
        exact (List.Nodup.getElem_inj_iff (hg.nodup _ hprevmem)).1 (g2.trans g4.symm)
      subst hab
      have := congrArg Prod.snd (List.inj_on_of_nodup_map hinj.1 ha1 hb1 rfl)
      simp at this; omega
    · have := htrslt a p _ ha1 ha2; omega
    · have := htrslt b q _ hb1 hb2; omega
    · have : i = j := by omega
      subst this
      rw [ha1] at hb1
      have := Option.some.inj hb1; omega
  have hrun : addFrameLinks n ds pf pt ti = (.ok (),
      { tr2pos := trs ++ unl.map (MTraj.mk1 (ti.pos2tr.length : Int)), pos2tr := ti.pos2tr ++ [cur'] }) := by
    unfold addFrameLinks
    have c1 : ¬ (ds.length ≠ pf.length ∨ pf.length ≠ pt.length) := by
      simp [ha.len1, ha.len2]
    have c2 : ¬ (pt.any (fun p => decide (n ≤ p)) = true) := by
      simp only [List.any_eq_true, decide_eq_true_eq, not_exists, not_and, not_le]
      exact ha.to_lt
    rw [if_neg c1, if_neg c2]
    rw [run_bind_ok (a := ti) (s' := ti) (by rfl)]
    rw [run_bind_lift (backR_ok.2 hprev)]
    rw [run_bind_ok (a := ()) (s' := ⟨ti.tr2pos, ti.pos2tr ++ [List.replicate n 0]⟩) (by rfl)]
    rw [hP]
    rw [run_bind_ok h1]
    rw [n1]
  refine ⟨cur', _, hrun, hlen, ?_, r1, ?_, ?_⟩
  · apply hg.extend hnodup
    · intro p tr hp hlt
      rcases hrow p tr hp with ⟨a, -, ha2⟩ | ⟨i, -, ha2⟩
      · exact ⟨prev, a, hlast, ha2⟩
      · omega
    · intro p tr hp hlt
      rcases hrow p tr hp with ⟨a, ha1, ha2⟩ | ⟨i, -, ha2⟩
      · rw [List.getElem?_append_left (by rw [hi.trsLen]; exact hlt)]
        exact hi.upd a p tr ha1 ha2
      · omega
    · intro tr hlt hnot
      rw [List.getElem?_append_left (by rw [hi.trsLen]; exact hlt)]
      apply hi.same
      intro a b hab hpa
      apply hnot
      have := r1 a b hab
      rw [hpa] at this
      exact List.mem_of_getElem? this
    · intro p tr hp hle
      rcases hrow p tr hp with ⟨a, ha1, ha2⟩ | ⟨i, ha1, rfl⟩
      · have := htrslt a p tr ha1 ha2; omega
      · rw [List.getElem?_append_right (by rw [hi.trsLen]; omega), List.getElem?_map, hi.trsLen,
          Nat.add_sub_cancel_left, ha1]
        rfl
    · intro tr hle hnot
      rw [List.getElem?_append_right (by rw [hi.trsLen]; omega), List.getElem?_map, hi.trsLen]
      cases hc : unl[tr - ti.tr2pos.length]? with
      | none => rfl
      | some p =>
        exfalso; apply hnot
        have := n4 _ p hc
        rw [hi.trsLen, Nat.add_sub_cancel' hle] at this
        exact List.mem_of_getElem? this
  · intro i p hip
    have := n4 i p hip
    rwa [hi.trsLen] at this
  · simp [hi.trsLen]

/-- An accepted frame had acceptable arguments. -/
theorem addFrameLinks_args {D : Type} [LinearOrder D] {ti ti' : MIndex} {prev : List Nat}
    (hprev : ti.pos2tr.getLast? = some prev) {n : Nat} {ds : List D} {pf pt : List Nat}
    (h : addFrameLinks n ds pf pt ti = (.ok (), ti')) : LinkArgs prev.length n ds pf pt := by
  unfold addFrameLinks at h
  split at h
  · cases h
  · rename_i c1
    split at h
    · cases h
    · rename_i c2
      simp only [ne_eq, not_or, not_not] at c1
      simp only [List.any_eq_true, decide_eq_true_eq, not_exists, not_and, not_le] at c2
      rw [run_bind_ok (a := ti) (s' := ti) (by rfl)] at h
      rw [run_bind_lift (backR_ok.2 hprev)] at h
      obtain ⟨_, _, -, h'⟩ := run_bind_inv h
      obtain ⟨u, s, h1, -⟩ := run_bind_inv h'
      have := linkLoop_inv h1
      refine ⟨c1.1, c1.2, c2, ?_⟩
      intro p hp
      obtain ⟨i, hi⟩ := List.mem_iff_getElem?.1 hp
      obtain ⟨hil, -⟩ := List.getElem?_eq_some_iff.1 hi
      have hd : ds[i]? = some (ds[i]'(by omega)) := List.getElem?_eq_getElem _
      have ht : pt[i]? = some (pt[i]'(by omega)) := List.getElem?_eq_getElem _
      have hm : (ds[i]'(by omega), (p, pt[i]'(by omega))) ∈ sortedBonds ds pf pt :=
        mem_sortedBonds.2 ⟨i, hd, hi, ht⟩
      have := this (p, pt[i]'(by omega)) (List.mem_map.2 ⟨_, hm, rfl⟩)
      simpa using this

end MIndex
end Colloids
