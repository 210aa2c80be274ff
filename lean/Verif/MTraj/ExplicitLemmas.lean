import Verif.MTraj.Lemmas
import Mathlib.Order.Interval.Finset.Nat

/-! # Helper lemmas for `add_Frame(first, last)` -/

namespace Colloids
namespace MIndex
open MIndexM

theorem uniq_mem (l : List Nat) (x : Nat) : x ∈ uniq l ↔ x ∈ l := by
  induction l using uniq.induct with
  | case1 => simp [uniq]
  | case2 a => simp [uniq]
  | case3 a l ih => simp only [uniq, if_true, ih]; simp
  | case4 a b l h ih => simp only [uniq, if_neg h, List.mem_cons, ih]

theorem uniq_sublist (l : List Nat) : (uniq l).Sublist l := by
  induction l using uniq.induct with
  | case1 => simp [uniq]
  | case2 a => simp [uniq]
  | case3 a l ih => simp only [uniq, if_true]; exact ih.trans (List.sublist_cons_self _ _)
  | case4 a b l h ih => simp only [uniq, if_neg h]; exact ih.cons_cons a

theorem uniq_lt (l : List Nat) (h : l.Pairwise (· ≤ ·)) : (uniq l).Pairwise (· < ·) := by
  induction l using uniq.induct with
  | case1 => simp [uniq]
  | case2 a => simp [uniq]
  | case3 a l ih => simp only [uniq, if_true]; exact ih h.tail
  | case4 a b l hne ih =>
    simp only [uniq, if_neg hne, List.pairwise_cons]
    refine ⟨?_, ih h.tail⟩
    intro x hx
    rw [uniq_mem] at hx
    have h1 := (List.pairwise_cons.1 h).1
    have h2 := (List.pairwise_cons.1 h.tail).1
    have hab := h1 b (by simp)
    rcases List.mem_cons.1 hx with rfl | hx
    · omega
    · have := h2 x hx; omega

/-- Sorted copy of the input. -/
def srt (input : List Nat) : List Nat := uniq (input.mergeSort (fun a b => decide (a ≤ b)))

theorem mergeSort_le (l : List Nat) : (l.mergeSort (fun a b => decide (a ≤ b))).Pairwise (· ≤ ·) := by
  have := List.pairwise_mergeSort (le := fun (a b : Nat) => decide (a ≤ b))
    (by intro a b c; simp; omega) (by intro a b; simp; omega) l
  simpa using this

theorem srt_lt (l : List Nat) : (srt l).Pairwise (· < ·) := uniq_lt _ (mergeSort_le l)

theorem mem_srt (l : List Nat) (x : Nat) : x ∈ srt l ↔ x ∈ l := by
  rw [srt, uniq_mem, List.mem_mergeSort]

theorem srt_length (l : List Nat) : ¬ (srt l).length < l.length ↔ l.Nodup := by
  have hp := List.mergeSort_perm l (fun a b => decide (a ≤ b))
  constructor
  · intro h
    have : srt l = l.mergeSort (fun a b => decide (a ≤ b)) :=
      (uniq_sublist _).eq_of_length_le (by rw [hp.length_eq]; exact not_lt.1 h)
    rw [← hp.nodup_iff, ← this]
    exact (srt_lt l).imp (fun h => Nat.ne_of_lt h)
  · intro hn
    have h1 : (srt l).Nodup := (srt_lt l).imp (fun h => Nat.ne_of_lt h)
    have : (srt l).Perm l := (List.perm_ext_iff_of_nodup h1 hn).2 (mem_srt l)
    rw [this.length_eq]; omega

theorem split_sorted {l : List Nat} (h : l.Pairwise (· < ·)) (nb : Nat) :
    l.takeWhile (fun x => decide (x < nb)) = l.filter (fun x => decide (x < nb)) ∧
    l.dropWhile (fun x => decide (x < nb)) = l.filter (fun x => decide (nb ≤ x)) := by
  induction l with
  | nil => simp
  | cons a l ih =>
    obtain ⟨h1, h2⟩ := List.pairwise_cons.1 h
    by_cases ha : a < nb
    · rw [List.takeWhile_cons_of_pos (by simpa using ha), List.dropWhile_cons_of_pos (by simpa using ha),
        List.filter_cons_of_pos (by simpa using ha), List.filter_cons_of_neg (by simpa using ha),
        (ih h2).1, (ih h2).2]
      exact ⟨rfl, rfl⟩
    · rw [List.takeWhile_cons_of_neg (by simpa using ha), List.dropWhile_cons_of_neg (by simpa using ha),
        List.filter_cons_of_neg (by simpa using ha), List.filter_cons_of_pos (by simpa using ha)]
      constructor
      · symm; rw [List.filter_eq_nil_iff]; intro x hx; have := h1 x hx; simp; omega
      · congr 1; symm; rw [List.filter_eq_self]; intro x hx; have := h1 x hx; simp; omega

/-- No gap between the elements. -/
def NoGap (l : List Nat) : Prop := ∀ a b c, a ∈ l → c ∈ l → a ≤ b → b ≤ c → b ∈ l

theorem consecutive_iff {l : List Nat} (hs : l.Pairwise (· < ·)) (hne : l ≠ []) :
    l.getLast hne - l.head hne + 1 = l.length ↔ NoGap l := by
  have hnd : l.Nodup := hs.imp (fun h => Nat.ne_of_lt h)
  have hle := hs.imp (fun h => Nat.le_of_lt h)
  have hhead : ∀ x ∈ l, l.head hne ≤ x := by
    cases l with
    | nil => exact absurd rfl hne
    | cons a l =>
      intro x hx
      rcases List.mem_cons.1 hx with rfl | hx
      · simp
      · exact (List.pairwise_cons.1 hle).1 x hx
  have hlast : ∀ x ∈ l, x ≤ l.getLast hne := by
    intro x hx
    obtain ⟨i, hi, rfl⟩ := List.mem_iff_getElem.1 hx
    rw [List.getLast_eq_getElem]
    by_cases h : i = l.length - 1
    · simp [h]
    · exact (List.pairwise_iff_getElem.1 hle) i (l.length - 1) hi (by omega) (by omega)
  have hsub : l.toFinset ⊆ Finset.Icc (l.head hne) (l.getLast hne) := by
    intro x hx
    rw [List.mem_toFinset] at hx
    rw [Finset.mem_Icc]; exact ⟨hhead x hx, hlast x hx⟩
  have hcard : l.toFinset.card = l.length := List.toFinset_card_of_nodup hnd
  have hhl := hhead _ (List.getLast_mem hne)
  constructor
  · intro h a b c ha hc hab hbc
    have heq := Finset.eq_of_subset_of_card_le hsub (by rw [hcard, Nat.card_Icc]; omega)
    rw [← List.mem_toFinset, heq, Finset.mem_Icc]
    exact ⟨le_trans (hhead a ha) hab, le_trans hbc (hlast c hc)⟩
  · intro hg
    have heq : l.toFinset = Finset.Icc (l.head hne) (l.getLast hne) := by
      apply Finset.Subset.antisymm hsub
      intro x hx
      rw [Finset.mem_Icc] at hx
      rw [List.mem_toFinset]
      exact hg _ x _ (List.head_mem hne) (List.getLast_mem hne) hx.1 hx.2
    rw [← hcard, heq, Nat.card_Icc]; omega

/-- Whether a trajectory may be continued: it reaches the end of the existing frames. -/
theorem checkOld_spec (old : List Nat) (s : MIndex) (hlt : ∀ tr ∈ old, tr < s.tr2pos.length) :
    checkOld old s =
      if ∃ tr ∈ old, ∃ T, s.tr2pos[tr]? = some T ∧ T.finish < (s.pos2tr.length : Int)
      then (.error .invalidArgument, s) else (.ok (), s) := by
  induction old with
  | nil => simp [checkOld, forAll]
  | cons tr old ih =>
    have h1 : tr < s.tr2pos.length := hlt tr (by simp)
    have hget : s.tr2pos[tr]? = some s.tr2pos[tr] := List.getElem?_eq_getElem h1
    simp only [checkOld, forAll]
    by_cases hc : s.tr2pos[tr].finish < (s.pos2tr.length : Int)
    · rw [run_bind_error (e := .invalidArgument) (s' := s)]
      · rw [if_pos]; exact ⟨tr, by simp, _, hget, hc⟩
      · rw [run_bind_ok (a := s) (s' := s) (by rfl), run_bind_lift (getR_of_lt h1), if_pos hc]; rfl
    · rw [run_bind_ok (a := ()) (s' := s)]
      · have := ih (fun x hx => hlt x (by simp [hx]))
        unfold checkOld at this
        rw [this]
        congr 1
        simp only [List.mem_cons, exists_eq_or_imp, eq_iff_iff]
        constructor
        · intro h; exact .inr h
        · rintro (⟨T, hT, h⟩ | h)
          · rw [hget] at hT; cases hT; exact absurd h hc
          · exact h
      · rw [run_bind_ok (a := s) (s' := s) (by rfl), run_bind_lift (getR_of_lt h1), if_neg hc]; rfl

/-- What `update` does to one trajectory. -/
def updOne (nb p tr : Nat) (T : MTraj) : MTraj :=
  if tr < nb then T.pushBack p else { T with steps := T.steps.set (T.steps.length - 1) p }

theorem updateStep_ok {nb p tr : Nat} {s : MIndex} {T : MTraj} (h : s.tr2pos[tr]? = some T)
    (hne : T.steps ≠ []) :
    updateStep nb (p, tr) s = (.ok (), { s with tr2pos := s.tr2pos.set tr (updOne nb p tr T) }) := by
  unfold updateStep updOne
  rw [run_bind_ok (a := s) (s' := s) (by rfl), run_bind_lift (getR_ok.2 h)]
  by_cases hlt : tr < nb
  · simp only [hlt, if_true]; rfl
  · simp only [hlt, if_false]
    have hu : T.updateLast p = .ok { T with steps := T.steps.set (T.steps.length - 1) p } := by
      unfold MTraj.updateLast
      rw [if_neg (by simpa using hne)]
    rw [run_bind_lift hu]; rfl

theorem updateStep_fault {nb p tr : Nat} {s : MIndex} (h : s.tr2pos.length ≤ tr) :
    updateStep nb (p, tr) s = (.error .ub, s) := by
  unfold updateStep
  rw [run_bind_ok (a := s) (s' := s) (by rfl)]
  rw [run_bind_error (e := .ub) (s' := s)]
  rw [run_lift, getR_eq_ub h]

theorem updateLoop {nb : Nat} (ptrs : List (Nat × Nat)) (trs : List MTraj) (Q : List (List Nat))
    (hlt : ∀ x ∈ ptrs, x.2 < trs.length) (hne : ∀ T ∈ trs, T.steps ≠ [])
    (hnd : (ptrs.map Prod.snd).Nodup) :
    ∃ trs', forAll (fun _ ptr => updateStep nb ptr) ptrs () ⟨trs, Q⟩ = (.ok (), ⟨trs', Q⟩) ∧
      trs'.length = trs.length ∧ (∀ T ∈ trs', T.steps ≠ []) ∧
      (∀ p tr, (p, tr) ∈ ptrs → trs'[tr]? = (trs[tr]?).map (updOne nb p tr)) ∧
      (∀ tr : Nat, tr ∉ ptrs.map Prod.snd → trs'[tr]? = trs[tr]?) := by
  induction ptrs using List.reverseRecOn with
  | nil => exact ⟨trs, rfl, rfl, hne, by simp, by simp⟩
  | append_singleton l x ih =>
    obtain ⟨p0, tr0⟩ := x
    rw [List.map_append, List.nodup_append] at hnd
    obtain ⟨hnd1, -, hnd2⟩ := hnd
    obtain ⟨trs1, h1, h2, h3, h4, h5⟩ := ih (fun x hx => hlt x (by simp [hx])) hnd1
    have htr0 : tr0 < trs.length := hlt (p0, tr0) (by simp)
    have htr1 : tr0 < trs1.length := by omega
    have hget : trs1[tr0]? = some trs1[tr0] := List.getElem?_eq_getElem htr1
    have hnot : tr0 ∉ l.map Prod.snd := fun hm => hnd2 tr0 hm tr0 (by simp) rfl
    have hstep := updateStep_ok (nb := nb) (p := p0) (tr := tr0) (s := ⟨trs1, Q⟩) hget
      (h3 _ (List.getElem_mem htr1))
    refine ⟨trs1.set tr0 (updOne nb p0 tr0 trs1[tr0]), ?_, by simp [h2], ?_, ?_, ?_⟩
    · rw [forAll_append]; simp only [h1, forAll_singleton]; rw [hstep]
    · intro T hT
      rcases List.mem_or_eq_of_mem_set hT with hT | hT
      · exact h3 T hT
      · subst hT
        unfold updOne
        have := h3 _ (List.getElem_mem htr1)
        split
        · simp [MTraj.pushBack]
        · simpa using this
    · intro p tr hm
      rw [List.getElem?_set]
      rcases List.mem_append.1 hm with hm | hm
      · have : tr0 ≠ tr := by rintro rfl; exact hnot (List.mem_map.2 ⟨_, hm, rfl⟩)
        rw [if_neg this]; exact h4 p tr hm
      · simp only [List.mem_singleton, Prod.mk.injEq] at hm
        obtain ⟨rfl, rfl⟩ := hm
        rw [if_pos rfl, if_pos htr1, ← h5 tr hnot, hget]; rfl
    · intro tr hm
      simp only [List.map_append, List.map_cons, List.map_nil, List.mem_append, List.mem_singleton,
        not_or] at hm
      rw [List.getElem?_set, if_neg (Ne.symm hm.2)]
      exact h5 tr hm.1

theorem updateLoop_fault {nb : Nat} (ptrs : List (Nat × Nat)) (trs : List MTraj) (Q : List (List Nat))
    (hbad : ∃ x ∈ ptrs, trs.length ≤ x.2) (hne : ∀ T ∈ trs, T.steps ≠ []) :
    (forAll (fun _ ptr => updateStep nb ptr) ptrs () ⟨trs, Q⟩).1 = .error .ub := by
  induction ptrs generalizing trs with
  | nil => simp at hbad
  | cons x l ih =>
    obtain ⟨p, tr⟩ := x
    simp only [forAll]
    by_cases h : trs.length ≤ tr
    · rw [run_bind_error (updateStep_fault h)]
    · have htr : tr < trs.length := by omega
      have hstep := updateStep_ok (nb := nb) (p := p) (tr := tr) (s := ⟨trs, Q⟩)
        (List.getElem?_eq_getElem htr) (hne _ (List.getElem_mem htr))
      rw [run_bind_ok hstep]
      apply ih
      · obtain ⟨y, hy, hy2⟩ := hbad
        rcases List.mem_cons.1 hy with rfl | hy
        · exact absurd hy2 h
        · exact ⟨y, hy, by simpa using hy2⟩
      · intro T hT
        rcases List.mem_or_eq_of_mem_set hT with hT | hT
        · exact hne T hT
        · subst hT
          unfold updOne
          have := hne _ (List.getElem_mem htr)
          split
          · simp [MTraj.pushBack]
          · simpa using this

/-- In a good index a trajectory ends at the last frame at the latest, and reaches it exactly when
it appears in the last frame. -/
theorem Good.finish {ti : MIndex} (h : ti.Good) {tr : Nat} {T : MTraj} (hT : ti.tr2pos[tr]? = some T)
    {last : List Nat} (hlast : ti.pos2tr[ti.pos2tr.length - 1]? = some last) :
    (T.finish < (ti.pos2tr.length : Int) ↔ tr ∉ last) := by
  have hmem := List.mem_of_getElem? hT
  have h0 := h.start T hmem
  have hn := h.nonempty T hmem
  have hfr := h.frames
  have hlen : 0 < T.steps.length := List.length_pos_iff.2 hn
  have hT' : (ti.tr2pos.map MTraj.toTraj)[tr]? = some T.toTraj := by
    rw [List.getElem?_map, hT]; rfl
  constructor
  · intro hf hin
    obtain ⟨p, hp⟩ := List.mem_iff_getElem?.1 hin
    have := h.pos_iff.2 ⟨last, hlast, hp⟩
    rw [posAt_iff hT'] at this
    obtain ⟨h1, h2⟩ := this
    obtain ⟨h3, -⟩ := List.getElem?_eq_some_iff.1 h2
    simp only [MTraj.toTraj] at h1 h3
    unfold MTraj.finish at hf
    omega
  · intro hnot
    by_contra hc
    apply hnot
    -- the last position of the trajectory is in some frame
    have hlastpos : posAt (ti.tr2pos.map MTraj.toTraj) tr (T.start.toNat + (T.steps.length - 1)) =
        some (T.steps[T.steps.length - 1]'(by omega)) := by
      rw [posAt_iff hT']
      simp only [MTraj.toTraj]
      refine ⟨by omega, ?_⟩
      rw [show T.start.toNat + (T.steps.length - 1) - T.start.toNat = T.steps.length - 1 by omega]
      exact List.getElem?_eq_getElem _
    obtain ⟨row, hr, hr2⟩ := h.pos_iff.1 hlastpos
    obtain ⟨hr1, -⟩ := List.getElem?_eq_some_iff.1 hr
    have : T.start.toNat + (T.steps.length - 1) = ti.pos2tr.length - 1 := by
      unfold MTraj.finish at hc; omega
    rw [this, hlast] at hr
    cases hr
    exact List.mem_of_getElem? hr2

/-- What `add_Frame(first, last)` checks before touching the index. -/
structure ExplicitArgs (ti : MIndex) (last input : List Nat) : Prop where
  nodup : input.Nodup
  cont : ∀ tr ∈ input, tr < ti.tr2pos.length → tr ∈ last
  nogap : ∀ a b c, a ∈ input → c ∈ input → ti.tr2pos.length ≤ a → a ≤ b → b ≤ c → b ∈ input

theorem explicit_unfold {ti : MIndex} {input : List Nat} (hg : ti.Good) (hnb : 0 < ti.tr2pos.length)
    {last : List Nat} (hlast : ti.pos2tr.getLast? = some last) :
    let new := (srt input).filter (fun x => decide (ti.tr2pos.length ≤ x))
    (¬ ExplicitArgs ti last input → addFrameExplicit input ti = (.error .invalidArgument, ti)) ∧
    (ExplicitArgs ti last input → addFrameExplicit input ti =
      forAll (fun _ ptr => updateStep ti.tr2pos.length ptr) (input.zipIdx.map Prod.swap) ()
        ⟨ti.tr2pos ++ new.map (fun _ => MTraj.mk1 (ti.pos2tr.length : Int) 0), ti.pos2tr ++ [input]⟩) := by
  intro new
  have hlast' : ti.pos2tr[ti.pos2tr.length - 1]? = some last := by
    rw [← List.getLast?_eq_getElem?]; exact hlast
  have hisold : (fun tr => decide (ti.tr2pos.length = 0 ∨ tr ≤ ti.tr2pos.length - 1)) =
      fun tr => decide (tr < ti.tr2pos.length) := by
    funext tr; congr 1; simp only [eq_iff_iff]; omega
  have hs := split_sorted (srt_lt input) ti.tr2pos.length
  have hnewlt : new.Pairwise (· < ·) := (srt_lt input).sublist List.filter_sublist
  have hmemnew : ∀ x, x ∈ new ↔ x ∈ input ∧ ti.tr2pos.length ≤ x := by
    intro x; simp [new, List.mem_filter, mem_srt]
  have hgl : ∀ hne : new ≠ [], (srt input).getLastD 0 = new.getLast hne ∧ new.headD 0 = new.head hne := by
    intro hne
    have hsplit : srt input = (srt input).takeWhile (fun x => decide (x < ti.tr2pos.length)) ++ new := by
      conv_lhs => rw [← List.takeWhile_append_dropWhile (p := fun x => decide (x < ti.tr2pos.length))
        (l := srt input)]
      rw [hs.2]
    constructor
    · rw [hsplit, List.getLastD_eq_getLast?, List.getLast?_append_of_ne_nil _ hne,
        List.getLast?_eq_some_getLast hne]
      rfl
    · have : ∀ (l : List Nat) (h : l ≠ []), l.headD 0 = l.head h := by
        intro l h; cases l with
        | nil => exact absurd rfl h
        | cons a l => rfl
      exact this new hne
  have hgapiff : (¬ (new ≠ [] ∧ (srt input).getLastD 0 - new.headD 0 + 1 ≠ new.length)) ↔
      (∀ a b c, a ∈ input → c ∈ input → ti.tr2pos.length ≤ a → a ≤ b → b ≤ c → b ∈ input) := by
    by_cases hne : new = []
    · constructor
      · intro _ a b c ha _ hla _ _
        exact absurd ((hmemnew a).2 ⟨ha, hla⟩) (by simp [hne])
      · intro _ h; exact h.1 hne
    · rw [(hgl hne).1, (hgl hne).2]
      have := consecutive_iff hnewlt hne
      simp only [ne_eq, hne, not_false_eq_true, true_and, not_not]
      rw [this]
      constructor
      · intro hgap a b c ha hc hla hab hbc
        exact ((hmemnew b).1 (hgap a b c ((hmemnew a).2 ⟨ha, hla⟩) ((hmemnew c).2 ⟨hc, by omega⟩) hab hbc)).1
      · intro h a b c ha hc hab hbc
        rw [hmemnew] at ha hc ⊢
        exact ⟨h a b c ha.1 hc.1 ha.2 hab hbc, by omega⟩
  have hcheck := checkOld_spec ((srt input).filter (fun x => decide (x < ti.tr2pos.length))) ti
    (by intro tr htr; simp [List.mem_filter] at htr; exact htr.2)
  have hcont : (∃ tr ∈ (srt input).filter (fun x => decide (x < ti.tr2pos.length)),
      ∃ T, ti.tr2pos[tr]? = some T ∧ T.finish < (ti.pos2tr.length : Int)) ↔
      ¬ ∀ tr ∈ input, tr < ti.tr2pos.length → tr ∈ last := by
    constructor
    · rintro ⟨tr, htr, T, hT, hf⟩ hall
      simp only [List.mem_filter, mem_srt, decide_eq_true_eq] at htr
      exact (hg.finish hT hlast').1 hf (hall tr htr.1 htr.2)
    · intro h
      simp only [not_forall] at h
      obtain ⟨tr, h1, h2, h3⟩ := h
      refine ⟨tr, by simp [List.mem_filter, mem_srt, h1, h2], ti.tr2pos[tr], List.getElem?_eq_getElem h2,
        (hg.finish (List.getElem?_eq_getElem h2) hlast').2 h3⟩
  unfold addFrameExplicit
  rw [show uniq (input.mergeSort (fun a b => decide (a ≤ b))) = srt input from rfl]
  dsimp only
  by_cases hnd : input.Nodup
  · rw [if_neg ((srt_length input).2 hnd)]
    rw [run_bind_ok (a := ti) (s' := ti) (by rfl)]
    simp only [hisold]
    rw [hs.1, hs.2]
    by_cases hc : ∀ tr ∈ input, tr < ti.tr2pos.length → tr ∈ last
    · rw [if_neg (by rw [hcont, not_not]; exact hc)] at hcheck
      rw [run_bind_ok hcheck]
      by_cases hgap : ∀ a b c, a ∈ input → c ∈ input → ti.tr2pos.length ≤ a → a ≤ b → b ≤ c → b ∈ input
      · refine ⟨fun h => absurd ⟨hnd, hc, hgap⟩ h, fun _ => ?_⟩
        rw [if_neg (hgapiff.2 hgap)]
        rfl
      · refine ⟨fun _ => ?_, fun h => absurd h.nogap hgap⟩
        rw [if_pos]
        · rfl
        · by_contra h'; exact hgap (hgapiff.1 h')
    · rw [if_pos (hcont.2 hc)] at hcheck
      rw [run_bind_error hcheck]
      exact ⟨fun _ => rfl, fun h => absurd h.cont hc⟩
  · rw [if_pos (by by_contra h; exact hnd ((srt_length input).1 h))]
    exact ⟨fun _ => rfl, fun h => absurd h.nodup hnd⟩

theorem explicit_ok {ti : MIndex} {input : List Nat} (hg : ti.Good) (hnb : 0 < ti.tr2pos.length)
    {last : List Nat} (hlast : ti.pos2tr.getLast? = some last) (ha : ExplicitArgs ti last input)
    (hfirst : (∀ tr ∈ input, tr < ti.tr2pos.length) ∨ ti.tr2pos.length ∈ input) :
    ∃ trs, addFrameExplicit input ti = (.ok (), ⟨trs, ti.pos2tr ++ [input]⟩) ∧
      Good ⟨trs, ti.pos2tr ++ [input]⟩ ∧
      trs.length = ti.tr2pos.length + (input.filter (fun x => decide (ti.tr2pos.length ≤ x))).length := by
  have hrun := (explicit_unfold (input := input) hg hnb hlast).2 ha
  have hlast' : ti.pos2tr[ti.pos2tr.length - 1]? = some last := by
    rw [← List.getLast?_eq_getElem?]; exact hlast
  set nb := ti.tr2pos.length with hnbdef
  set new := (srt input).filter (fun x => decide (nb ≤ x)) with hnew
  have hmemnew : ∀ x, x ∈ new ↔ x ∈ input ∧ nb ≤ x := by
    intro x; simp [new, List.mem_filter, mem_srt]
  have hnewnd : new.Nodup :=
    ((srt_lt input).imp (fun h => Nat.ne_of_lt h)).filter _
  have hperm : new.Perm (input.filter (fun x => decide (nb ≤ x))) := by
    rw [List.perm_ext_iff_of_nodup hnewnd (ha.nodup.filter _)]
    intro x; rw [hmemnew]; simp [List.mem_filter]
  -- the new numbers are nb, nb+1, ...
  have hrange : ∀ x, x ∈ new ↔ nb ≤ x ∧ x < nb + new.length := by
    have hsub : ∀ x ∈ new, ∀ y, nb ≤ y → y ≤ x → y ∈ new := by
      intro x hx y hy hyx
      rw [hmemnew] at hx ⊢
      refine ⟨?_, hy⟩
      have : nb ∈ input := by
        rcases hfirst with h | h
        · have := h x hx.1; omega
        · exact h
      exact ha.nogap nb y x this hx.1 (le_refl _) hy hyx
    intro x
    constructor
    · intro hx
      refine ⟨((hmemnew x).1 hx).2, ?_⟩
      have : (Finset.Icc nb x) ⊆ new.toFinset := by
        intro y hy; rw [Finset.mem_Icc] at hy; rw [List.mem_toFinset]; exact hsub x hx y hy.1 hy.2
      have := Finset.card_le_card this
      rw [Nat.card_Icc, List.toFinset_card_of_nodup hnewnd] at this
      have := ((hmemnew x).1 hx).2
      omega
    · rintro ⟨h1, h2⟩
      by_contra hx
      have : new.toFinset ⊆ Finset.Ico nb x := by
        intro y hy
        rw [List.mem_toFinset] at hy
        rw [Finset.mem_Ico]
        refine ⟨((hmemnew y).1 hy).2, ?_⟩
        by_contra hyx
        exact hx (hsub y hy x h1 (by omega))
      have := Finset.card_le_card this
      rw [Nat.card_Ico, List.toFinset_card_of_nodup hnewnd] at this
      omega
  have hrf : input.zipIdx.map Prod.swap = rowFrame input := rfl
  rw [hrf] at hrun
  have hlen0 : (ti.tr2pos ++ new.map (fun _ => MTraj.mk1 (ti.pos2tr.length : Int) 0)).length =
      nb + new.length := by simp [hnbdef]
  have hinlt : ∀ tr ∈ input, tr < nb + new.length := by
    intro tr htr
    by_cases h : tr < nb
    · omega
    · exact ((hrange tr).1 ((hmemnew tr).2 ⟨htr, by omega⟩)).2
  obtain ⟨trs, h1, h2, h3, h4, h5⟩ := updateLoop (nb := nb) (rowFrame input)
    (ti.tr2pos ++ new.map (fun _ => MTraj.mk1 (ti.pos2tr.length : Int) 0)) (ti.pos2tr ++ [input])
    (by
      rintro ⟨p, tr⟩ hx
      rw [mem_rowFrame] at hx
      rw [hlen0]
      exact hinlt tr (List.mem_of_getElem? hx))
    (by
      intro T hT
      rcases List.mem_append.1 hT with hT | hT
      · exact hg.nonempty T hT
      · obtain ⟨_, _, rfl⟩ := List.mem_map.1 hT; simp [MTraj.mk1])
    (by rw [rowFrame_snd]; exact ha.nodup)
  rw [rowFrame_snd] at h5
  refine ⟨trs, by rw [hrun, h1], ?_, by rw [h2, hlen0, hperm.length_eq]⟩
  apply hg.extend ha.nodup
  · intro p tr hp hlt
    obtain ⟨q, hq⟩ := List.mem_iff_getElem?.1 (ha.cont tr (List.mem_of_getElem? hp) hlt)
    exact ⟨last, q, hlast', hq⟩
  · intro p tr hp hlt
    rw [h4 p tr (mem_rowFrame.2 hp), List.getElem?_append_left hlt]
    congr 1
    funext T
    unfold updOne
    rw [if_pos hlt]
  · intro tr hlt hnot
    rw [h5 tr hnot, List.getElem?_append_left hlt]
  · intro p tr hp hle
    have hlt : tr < nb + new.length := hinlt tr (List.mem_of_getElem? hp)
    rw [h4 p tr (mem_rowFrame.2 hp), List.getElem?_append_right hle, List.getElem?_map,
      List.getElem?_eq_getElem (show tr - ti.tr2pos.length < new.length by omega)]
    simp only [Option.map_some]
    unfold updOne
    rw [if_neg (by omega)]
    simp [MTraj.mk1]
  · intro tr hle hnot
    rw [h5 tr hnot, List.getElem?_append_right hle, List.getElem?_map]
    rw [List.getElem?_eq_none]
    · rfl
    · by_contra hc
      exact hnot ((hmemnew tr).1 ((hrange tr).2 ⟨hle, by omega⟩)).1

theorem explicit_skip {ti : MIndex} {input : List Nat} (hg : ti.Good) (hnb : 0 < ti.tr2pos.length)
    {last : List Nat} (hlast : ti.pos2tr.getLast? = some last) (ha : ExplicitArgs ti last input)
    (hfirst : ¬ ((∀ tr ∈ input, tr < ti.tr2pos.length) ∨ ti.tr2pos.length ∈ input)) :
    (addFrameExplicit input ti).1 = .error .ub := by
  rw [(explicit_unfold (input := input) hg hnb hlast).2 ha]
  set nb := ti.tr2pos.length with hnbdef
  set new := (srt input).filter (fun x => decide (nb ≤ x)) with hnew
  have hmemnew : ∀ x, x ∈ new ↔ x ∈ input ∧ nb ≤ x := by
    intro x; simp [new, List.mem_filter, mem_srt]
  have hnewnd : new.Nodup :=
    ((srt_lt input).imp (fun h => Nat.ne_of_lt h)).filter _
  rw [not_or] at hfirst
  obtain ⟨f1, f2⟩ := hfirst
  apply updateLoop_fault
  · by_contra hall
    push Not at hall
    simp only [List.length_append, List.length_map, ← hnbdef] at hall
    have : new.toFinset ⊆ Finset.Ico (nb + 1) (nb + new.length) := by
      intro y hy
      rw [List.mem_toFinset, hmemnew] at hy
      rw [Finset.mem_Ico]
      obtain ⟨p, hp⟩ := List.mem_iff_getElem?.1 hy.1
      have h1 := hall (p, y) (mem_rowFrame.2 hp)
      refine ⟨?_, h1⟩
      rcases Nat.lt_or_eq_of_le hy.2 with h | h
      · exact h
      · exact absurd (h ▸ hy.1) f2
    have := Finset.card_le_card this
    rw [Nat.card_Ico, List.toFinset_card_of_nodup hnewnd] at this
    have : new ≠ [] := by
      push Not at f1
      obtain ⟨tr, h1, h2⟩ := f1
      exact List.ne_nil_of_mem ((hmemnew tr).2 ⟨h1, h2⟩)
    have := List.length_pos_iff.2 this
    omega
  · intro T hT
    rcases List.mem_append.1 hT with hT | hT
    · exact hg.nonempty T hT
    · obtain ⟨_, _, rfl⟩ := List.mem_map.1 hT; simp [MTraj.mk1]

/-- The only fault of the computation is undefined behaviour. -/
def OnlyUb (x : MIndexM α) : Prop := ∀ s e, (x s).1 = .error e → e = .ub

theorem OnlyUb.bind {x : MIndexM α} {f : α → MIndexM β} (hx : OnlyUb x) (hf : ∀ a, OnlyUb (f a)) :
    OnlyUb (x >>= f) := by
  intro s e h
  cases hc : x s with
  | mk r s' =>
    cases r with
    | ok a => rw [run_bind_ok hc] at h; exact hf a s' e h
    | error e' =>
      rw [run_bind_error hc] at h
      have := hx s e' (by rw [hc])
      cases h; exact this

theorem OnlyUb.pure (a : α) : OnlyUb (pure a : MIndexM α) := by
  intro s e h; cases h

theorem OnlyUb.get : OnlyUb MIndexM.get := by intro s e h; cases h
theorem OnlyUb.setTr (l) : OnlyUb (MIndexM.setTr l) := by intro s e h; cases h
theorem OnlyUb.setPos (l) : OnlyUb (MIndexM.setPos l) := by intro s e h; cases h

theorem OnlyUb.lift {r : R α} (h : ∀ e, r = .error e → e = .ub) : OnlyUb (MIndexM.lift r) := by
  intro s e he; exact h e he

theorem OnlyUb.forAll {f : β → α → MIndexM β} (hf : ∀ b a, OnlyUb (f b a)) (l : List α) (b : β) :
    OnlyUb (MIndex.forAll f l b) := by
  induction l generalizing b with
  | nil => exact OnlyUb.pure b
  | cons a l ih => exact (hf b a).bind (fun b' => ih b')

theorem getR_err {l : List α} {i : Nat} {e : Fault} (h : getR l i = .error e) : e = .ub := by
  unfold getR at h; split at h <;> cases h; rfl
theorem setR_err {l : List α} {i : Nat} {a : α} {e : Fault} (h : setR l i a = .error e) : e = .ub := by
  unfold setR at h; split at h <;> cases h; rfl
theorem modifyR_err {l : List α} {i : Nat} {f : α → α} {e : Fault} (h : modifyR l i f = .error e) :
    e = .ub := by
  unfold modifyR at h; split at h <;> cases h; rfl
theorem backR_err {l : List α} {e : Fault} (h : backR l = .error e) : e = .ub := by
  unfold backR at h; split at h <;> cases h; rfl

theorem linkStep_onlyUb (u : List Bool × List Bool) (b : Nat × Nat) : OnlyUb (linkStep u b) := by
  unfold linkStep
  refine (OnlyUb.lift fun e => getR_err).bind fun fu => ?_
  split
  · exact OnlyUb.pure _
  · refine (OnlyUb.lift fun e => getR_err).bind fun tu => ?_
    split
    · exact OnlyUb.pure _
    · refine OnlyUb.get.bind fun s => (OnlyUb.lift fun e => getR_err).bind fun _ =>
        (OnlyUb.lift fun e => getR_err).bind fun _ => (OnlyUb.lift fun e => backR_err).bind fun _ =>
        (OnlyUb.lift fun e => setR_err).bind fun _ => (OnlyUb.setPos _).bind fun _ =>
        (OnlyUb.lift fun e => modifyR_err).bind fun _ => (OnlyUb.setTr _).bind fun _ => OnlyUb.pure _

theorem newStep_onlyUb (tu : List Bool) (p : Nat) : OnlyUb (newStep tu p) := by
  unfold newStep
  refine (OnlyUb.lift fun e => getR_err).bind fun fu => ?_
  split
  · exact OnlyUb.pure _
  · exact OnlyUb.get.bind fun s => (OnlyUb.lift fun e => backR_err).bind fun _ =>
      (OnlyUb.lift fun e => setR_err).bind fun _ => (OnlyUb.setPos _).bind fun _ => OnlyUb.setTr _

theorem updateStep_onlyUb (nb : Nat) (x : Nat × Nat) : OnlyUb (updateStep nb x) := by
  unfold updateStep
  refine OnlyUb.get.bind fun s => (OnlyUb.lift fun e => getR_err).bind fun T => ?_
  split
  · exact OnlyUb.setTr _
  · refine (OnlyUb.lift fun e h => ?_).bind fun _ => OnlyUb.setTr _
    unfold MTraj.updateLast at h
    split at h <;> cases h; rfl

/-- The checks do not touch the object. -/
theorem checkOld_state (old : List Nat) (s : MIndex) : (checkOld old s).2 = s := by
  unfold checkOld
  induction old with
  | nil => rfl
  | cons tr old ih =>
    simp only [forAll]
    have hstep : ∀ r, ((do
        let s ← MIndexM.get
        let T ← lift (getR s.tr2pos tr)
        if T.finish < (s.pos2tr.length : Int) then throw .invalidArgument else return () : MIndexM Unit) s)
          = r → r.2 = s := by
      rintro r rfl
      rw [run_bind_ok (a := s) (s' := s) (by rfl)]
      cases hc : getR s.tr2pos tr with
      | error e => rw [run_bind_error (e := e) (s' := s) (by rw [run_lift])]
      | ok T =>
        rw [run_bind_lift rfl]
        split <;> rfl
    cases hc : (do
        let s ← MIndexM.get
        let T ← lift (getR s.tr2pos tr)
        if T.finish < (s.pos2tr.length : Int) then throw .invalidArgument else return () : MIndexM Unit) s with
    | mk r s' =>
      have := hstep _ hc
      simp only at this
      subst this
      cases r with
      | ok _ => rw [run_bind_ok hc]; exact ih
      | error e => rw [run_bind_error hc]

end MIndex
end Colloids
