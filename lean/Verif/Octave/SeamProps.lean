import Verif.Octave.SeamModel
import Verif.CommonLemmas
import Mathlib.Tactic.Ring
import Mathlib.Tactic.Tauto

/-! # C118: a spot found in two consecutive octaves is kept in one of them -/

namespace Colloids
namespace Octave

variable {G Pos : Type} [LinearOrder G] [DecidableEq Pos]

/-- The centers are the pixels marked in the binary images. -/
structure SeamSide.WF (o : SeamSide G Pos) : Prop where
  size : o.nbBinary = o.nbLayers
  pos : 1 ≤ o.nbLayers
  bounds : ∀ c ∈ o.centers, o.inside c.1 = true ∧ 1 ≤ c.2 ∧ c.2 ≤ o.nbLayers
  marks : ∀ k p, 1 ≤ k → k ≤ o.nbLayers → o.inside p = true → (o.binary k p = true ↔ (p, k) ∈ o.centers)

/-- Same images. -/
def SeamSide.Same (a b : SeamSide G Pos) : Prop :=
  a.nbLayers = b.nbLayers ∧ a.nbBinary = b.nbBinary ∧ a.height = b.height ∧ a.inside = b.inside ∧ a.value = b.value

theorem highLoop_run (pix : Pos → Pos) (lo : SeamSide G Pos) (T : Pos × Nat → Bool) (l : List (Pos × Nat)) :
    ∀ st : SeamSide G Pos, (∀ st' : SeamSide G Pos, st'.Same st → ∀ c ∈ l, highTest pix lo st' c = .ok (T c)) →
      (∀ c ∈ l, 1 ≤ c.2 ∧ c.2 ≤ st.nbBinary ∧ st.inside c.1 = true) →
      ∃ st', l.foldlM (highTurn pix lo) st = .ok st' ∧ st'.Same st ∧
        st'.centers = st.centers ++ l.filter (fun c => !T c) ∧
        ∀ k p, st'.binary k p = (st.binary k p && !(decide ((p, k) ∈ l ∧ T (p, k) = true))) := by
  induction l with
  | nil => exact fun st _ _ => ⟨st, rfl, ⟨rfl, rfl, rfl, rfl, rfl⟩, by simp, by simp⟩
  | cons c l ih =>
    intro st hT hb
    have h1 := hT st ⟨rfl, rfl, rfl, rfl, rfl⟩ c (by simp)
    have hc := hb c (by simp)
    cases ht : T c with
    | true =>
      let st1 : SeamSide G Pos := { st with binary := fun k' p' => if k' = c.2 ∧ p' = c.1 then false else st.binary k' p' }
      have hs1 : st1.Same st := ⟨rfl, rfl, rfl, rfl, rfl⟩
      have e : highTurn pix lo st c = .ok st1 := by
        unfold highTurn
        rw [h1, ht]
        simp only [ok_bind, if_true, SeamSide.setBit]
        rw [if_pos hc]
      obtain ⟨st', r1, r2, r3, r4⟩ := ih st1
        (fun st' h c' hc' => hT st' h c' (by simp [hc'])) (fun c' hc' => hb c' (by simp [hc']))
      refine ⟨st', by rw [List.foldlM_cons, e]; exact r1, r2, ?_, fun k p => ?_⟩
      · rw [r3, List.filter_cons_of_neg (by simp [ht])]
      · rw [r4]
        show ((if k = c.2 ∧ p = c.1 then false else st.binary k p) && _) = _
        by_cases hk : k = c.2 ∧ p = c.1
        · obtain ⟨rfl, rfl⟩ := hk
          simp [ht]
        · rw [if_neg hk]
          have : (p, k) ≠ c := fun h => hk ⟨by rw [← h], by rw [← h]⟩
          simp [this]
    | false =>
      let st1 : SeamSide G Pos := { st with centers := st.centers ++ [c] }
      have e : highTurn pix lo st c = .ok st1 := by
        unfold highTurn
        rw [h1, ht]
        rfl
      obtain ⟨st', r1, r2, r3, r4⟩ := ih st1
        (fun st' h c' hc' => hT st' h c' (by simp [hc'])) (fun c' hc' => hb c' (by simp [hc']))
      refine ⟨st', by rw [List.foldlM_cons, e]; exact r1, r2, ?_, fun k p => ?_⟩
      · rw [r3, List.filter_cons_of_pos (by simp [ht])]
        simp [st1]
      · rw [r4]
        show (st.binary k p && _) = _
        by_cases hk : (p, k) = c
        · subst hk
          simp [ht]
        · simp [hk]

theorem lowPixel_fold (hi : SeamSide G Pos) (vb : G) (w : List Pos)
    (hw : ∀ p ∈ w, 1 ≤ hi.nbBinary ∧ hi.inside p = true) : ∀ b,
    w.foldlM (lowPixel hi vb) b = .ok (b && w.all fun p =>
      !(hi.binary hi.nbBinary p && decide (hi.value hi.nbLayers p < vb))) := by
  induction w with
  | nil => intro b; simp [pure, Except.pure]
  | cons p w ih =>
    intro b
    have hp := hw p (by simp)
    have e : lowPixel hi vb b p = .ok (b && !(hi.binary hi.nbBinary p && decide (hi.value hi.nbLayers p < vb))) := by
      unfold lowPixel SeamSide.bit SeamSide.layer
      rw [if_pos ⟨hp.1, le_refl _, hp.2⟩, ok_bind]
      cases hi.binary hi.nbBinary p with
      | false => simp [pure, Except.pure]
      | true =>
        rw [if_pos rfl, if_pos ⟨by omega, hp.2⟩, ok_bind]
        simp [pure, Except.pure]
    rw [List.foldlM_cons, e]
    refine (ih (fun q hq => hw q (by simp [hq])) _).trans ?_
    simp [Bool.and_assoc]

/-- What decides that a center of the first layer of the low resolution is kept. -/
def keeps (hi lo : SeamSide G Pos) (w : List Pos) (q : Pos) : Bool :=
  w.all fun p => !(hi.binary hi.nbBinary p && decide (hi.value hi.nbLayers p < lo.value 1 q))

theorem lowLoop_run (window : Pos → R (List Pos)) (W : Pos → List Pos) (hi lo : SeamSide G Pos)
    (l : List (Pos × Nat)) : ∀ st : SeamSide G Pos, st.Same lo →
      (∀ c ∈ l, c.2 = 1 → window c.1 = .ok (W c.1) ∧ lo.inside c.1 = true ∧ 1 ≤ lo.nbBinary ∧
        ∀ p ∈ W c.1, 1 ≤ hi.nbBinary ∧ hi.inside p = true) →
      ∃ st', l.foldlM (lowTurn window hi) st = .ok st' ∧ st'.Same lo ∧
        st'.centers = st.centers ++ l.filter (fun c => decide (c.2 = 1 → st.binary 1 c.1 = true ∧ keeps hi lo (W c.1) c.1 = true)) ∧
        ∀ k p, st'.binary k p = (st.binary k p && decide (k = 1 → (p, 1) ∈ l → keeps hi lo (W p) p = true)) := by
  induction l with
  | nil => exact fun st h _ => ⟨st, rfl, h, by simp, by simp⟩
  | cons c l ih =>
    intro st hst h
    by_cases h1 : c.2 = 1
    · obtain ⟨hw, hin, hnb, hW⟩ := h c (by simp) h1
      set b := (st.binary 1 c.1 && keeps hi lo (W c.1) c.1) with hbdef
      let st0 : SeamSide G Pos := { st with binary := fun k' p' => if k' = 1 ∧ p' = c.1 then b else st.binary k' p' }
      let st1 : SeamSide G Pos := if b then { st0 with centers := st0.centers ++ [c] } else st0
      have hs1 : st1.Same lo := by
        unfold SeamSide.Same
        simp only [st1]
        split <;> exact hst
      have hin' : st.inside c.1 = true := by rw [hst.2.2.2.1]; exact hin
      have hnb' : 1 ≤ st.nbBinary := by rw [hst.2.1]; exact hnb
      have e : lowTurn window hi st c = .ok st1 := by
        unfold lowTurn
        rw [if_pos h1]
        unfold SeamSide.bit SeamSide.layer
        rw [if_pos ⟨le_refl _, hnb', hin'⟩, if_pos ⟨by omega, hin'⟩]
        simp only [ok_bind]
        rw [hw]
        simp only [ok_bind]
        rw [lowPixel_fold hi _ _ hW]
        simp only [ok_bind]
        unfold SeamSide.setBit
        rw [if_pos ⟨le_refl _, hnb', hin'⟩]
        simp only [ok_bind]
        have : (st.binary 1 c.1 && (W c.1).all fun p =>
            !(hi.binary hi.nbBinary p && decide (hi.value hi.nbLayers p < st.value 1 c.1))) = b := by
          rw [hbdef]
          unfold keeps
          rw [hst.2.2.2.2]
        rw [this]
        rfl
      obtain ⟨st', r1, r2, r3, r4⟩ := ih st1 hs1 (fun c' hc' => h c' (by simp [hc']))
      have hbin : ∀ k p, st1.binary k p = if k = 1 ∧ p = c.1 then b else st.binary k p := by
        intro k p
        simp only [st1]
        split <;> rfl
      have hcen : st1.centers = st.centers ++ if b then [c] else [] := by
        simp only [st1]
        cases b <;> simp [st0]
      refine ⟨st', by rw [List.foldlM_cons, e]; exact r1, r2, ?_, fun k p => ?_⟩
      · rw [r3, hcen, List.append_assoc]
        congr 1
        have hf : l.filter (fun c' => decide (c'.2 = 1 → st1.binary 1 c'.1 = true ∧ keeps hi lo (W c'.1) c'.1 = true)) =
            l.filter (fun c' => decide (c'.2 = 1 → st.binary 1 c'.1 = true ∧ keeps hi lo (W c'.1) c'.1 = true)) := by
          apply List.filter_congr
          intro c' _
          rw [hbin]
          by_cases hcc : c'.1 = c.1
          · simp only [hcc, and_self, if_true, hbdef]
            simp
          · simp [hcc]
        rw [hf]
        by_cases hb : b = true
        · rw [List.filter_cons_of_pos (by
            rw [hbdef, Bool.and_eq_true] at hb
            simpa [h1] using hb)]
          simp [hb]
        · rw [List.filter_cons_of_neg (by
            rw [hbdef, Bool.and_eq_true] at hb
            simpa [h1] using hb)]
          simp [hb]
      · rw [r4, hbin]
        have hc : c = (c.1, 1) := by rw [← h1]
        by_cases hk : k = 1 ∧ p = c.1
        · obtain ⟨rfl, rfl⟩ := hk
          rw [if_pos ⟨rfl, rfl⟩, hbdef]
          have : (c.1, 1) ∈ c :: l := by rw [← hc]; simp
          simp only [true_imp_iff, this]
          cases st.binary 1 c.1 <;> cases keeps hi lo (W c.1) c.1 <;> simp
        · rw [if_neg hk]
          congr 2
          apply propext
          constructor
          · intro hh hk1 hm
            rcases List.mem_cons.1 hm with hm | hm
            · exact absurd ⟨hk1, by rw [← hm]⟩ hk
            · exact hh hk1 hm
          · exact fun hh hk1 hm => hh hk1 (by simp [hm])
    · let st1 : SeamSide G Pos := { st with centers := st.centers ++ [c] }
      have e : lowTurn window hi st c = .ok st1 := by
        unfold lowTurn
        rw [if_neg h1]
        rfl
      obtain ⟨st', r1, r2, r3, r4⟩ := ih st1 hst (fun c' hc' => h c' (by simp [hc']))
      refine ⟨st', by rw [List.foldlM_cons, e]; exact r1, r2, ?_, fun k p => ?_⟩
      · rw [r3, List.filter_cons_of_pos (by simp [h1])]
        simp [st1]
      · rw [r4]
        show (st.binary k p && _) = _
        congr 2
        apply propext
        constructor
        · intro hh hk1 hm
          rcases List.mem_cons.1 hm with hm | hm
          · exact absurd (by rw [← hm]) h1
          · exact hh hk1 hm
        · exact fun hh hk1 hm => hh hk1 (by simp [hm])

/-- The two loops. -/
theorem seam_generic (pix : Pos → Pos) (window : Pos → R (List Pos)) (W : Pos → List Pos)
    (near : Pos → Pos → Prop) (hi lo : SeamSide G Pos)
    (hhi : hi.WF) (hlo : lo.WF)
    (hpix : ∀ p, (p, hi.nbLayers) ∈ hi.centers → lo.inside (pix p) = true)
    (hwin : ∀ q, (q, 1) ∈ lo.centers → window q = .ok (W q) ∧ ∀ p, p ∈ W q ↔ (hi.inside p = true ∧ near p q)) :
    ∃ hi' lo', highLoop pix lo hi = .ok hi' ∧ lowLoop window hi' lo = .ok lo' ∧
      hi'.WF ∧ lo'.WF ∧ hi'.Same hi ∧ lo'.Same lo ∧
      hi'.centers.Sublist hi.centers ∧ lo'.centers.Sublist lo.centers ∧
      (∀ p k, (p, k) ∈ hi'.centers ↔ (p, k) ∈ hi.centers ∧
        ¬ (k = hi.nbLayers ∧ (pix p, 1) ∈ lo.centers ∧ lo.value 1 (pix p) < hi.value k p)) ∧
      (∀ q k, (q, k) ∈ lo'.centers ↔ (q, k) ∈ lo.centers ∧
        ¬ (k = 1 ∧ ∃ p, (p, hi.nbLayers) ∈ hi'.centers ∧ near p q ∧ hi.value hi.nbLayers p < lo.value 1 q)) := by
  let T : Pos × Nat → Bool := fun c => decide (c.2 = hi.nbLayers ∧ (pix c.1, 1) ∈ lo.centers ∧
    lo.value 1 (pix c.1) < hi.value c.2 c.1)
  have hT : ∀ st : SeamSide G Pos, st.Same { hi with centers := [] } → ∀ c ∈ hi.centers,
      highTest pix lo st c = .ok (T c) := by
    intro st hst c hc
    unfold highTest
    have hn : st.nbLayers = hi.nbLayers := hst.1
    rw [hn]
    by_cases h1 : c.2 = hi.nbLayers
    · rw [if_pos h1]
      have hp := hpix c.1 (by rw [← h1]; exact hc)
      have hl := hlo.size
      have hl1 := hlo.pos
      unfold SeamSide.bit SeamSide.layer
      rw [if_pos ⟨le_refl _, by omega, hp⟩, ok_bind]
      have hm := hlo.marks 1 (pix c.1) (le_refl _) hlo.pos hp
      by_cases hb : (pix c.1, 1) ∈ lo.centers
      · rw [if_pos (hm.2 hb), if_pos ⟨by omega, by rw [show st.inside = hi.inside from hst.2.2.2.1]; exact (hhi.bounds c hc).1⟩,
          if_pos ⟨by omega, hp⟩]
        simp only [ok_bind, pure_eq_ok]
        rw [show st.value = hi.value from hst.2.2.2.2]
        congr 1
        simp only [T, h1, hb, true_and]
      · rw [if_neg (by rw [hm]; exact hb)]
        simp [T, hb, pure_eq_ok]
    · rw [if_neg h1]
      simp [T, h1, pure_eq_ok]
  obtain ⟨hi', r1, r2, r3, r4⟩ := highLoop_run pix lo T hi.centers { hi with centers := [] } hT (fun c hc => by
    have := hhi.bounds c hc
    have h2 := hhi.size
    exact ⟨this.2.1, by show c.2 ≤ hi.nbBinary; omega, this.1⟩)
  have s2 : hi'.Same hi := r2
  rw [show ({ hi with centers := [] } : SeamSide G Pos).centers = [] from rfl, List.nil_append] at r3
  have m3 : ∀ p k, (p, k) ∈ hi'.centers ↔ (p, k) ∈ hi.centers ∧
        ¬ (k = hi.nbLayers ∧ (pix p, 1) ∈ lo.centers ∧ lo.value 1 (pix p) < hi.value k p) := by
    intro p k
    rw [r3, List.mem_filter]
    simp only [T, Bool.not_eq_true', decide_eq_false_iff_not]
  have wf' : hi'.WF := by
    refine ⟨by rw [s2.1, s2.2.1]; exact hhi.size, by rw [s2.1]; exact hhi.pos, fun c hc => ?_, fun k p hk1 hk2 hp => ?_⟩
    · rw [r3] at hc
      rw [s2.1, s2.2.2.2.1]
      exact hhi.bounds c (List.mem_of_mem_filter hc)
    · rw [s2.1] at hk2
      rw [s2.2.2.2.1] at hp
      rw [r4, m3]
      show (hi.binary k p && _) = true ↔ _
      rw [Bool.and_eq_true, hhi.marks k p hk1 hk2 hp]
      simp only [T, Bool.not_eq_true', decide_eq_false_iff_not, decide_eq_true_eq]
      tauto
  have hwin' : ∀ c ∈ lo.centers, c.2 = 1 → window c.1 = .ok (W c.1) ∧ lo.inside c.1 = true ∧ 1 ≤ lo.nbBinary ∧
        ∀ p ∈ W c.1, 1 ≤ hi'.nbBinary ∧ hi'.inside p = true := by
    intro c hc h1
    have hw := hwin c.1 (by rw [← h1]; exact hc)
    refine ⟨hw.1, (hlo.bounds c hc).1, by rw [hlo.size]; exact hlo.pos, fun p hp => ⟨?_, ?_⟩⟩
    · rw [wf'.size]; exact wf'.pos
    · rw [s2.2.2.2.1]; exact ((hw.2 p).1 hp).1
  obtain ⟨lo', t1, t2, t3, t4⟩ := lowLoop_run window W hi' lo lo.centers { lo with centers := [] }
    ⟨rfl, rfl, rfl, rfl, rfl⟩ hwin'
  rw [show ({ lo with centers := [] } : SeamSide G Pos).centers = [] from rfl, List.nil_append] at t3
  have hkeep : ∀ q, (q, 1) ∈ lo.centers → (keeps hi' lo (W q) q = true ↔
      ¬ ∃ p, (p, hi.nbLayers) ∈ hi'.centers ∧ near p q ∧ hi.value hi.nbLayers p < lo.value 1 q) := by
    intro q hq
    have hw := hwin q hq
    unfold keeps
    rw [List.all_eq_true, s2.1, s2.2.2.2.2, s2.2.1, hhi.size]
    constructor
    · rintro h ⟨p, hp, hn, hv⟩
      have hin := wf'.bounds _ hp
      rw [s2.2.2.2.1] at hin
      have := h p ((hw.2 p).2 ⟨hin.1, hn⟩)
      have hb := (wf'.marks hi.nbLayers p hhi.pos (by rw [s2.1]) (by rw [s2.2.2.2.1]; exact hin.1)).2 hp
      simp [hb, hv] at this
    · intro h p hp
      have hin := (hw.2 p).1 hp
      by_contra hcon
      simp only [Bool.not_eq_true', Bool.and_eq_true, Bool.not_eq_false, decide_eq_true_eq] at hcon
      have hb := (wf'.marks hi.nbLayers p hhi.pos (by rw [s2.1]) (by rw [s2.2.2.2.1]; exact hin.1)).1 hcon.1
      exact h ⟨p, hb, hin.2, hcon.2⟩
  have m4 : ∀ q k, (q, k) ∈ lo'.centers ↔ (q, k) ∈ lo.centers ∧
        ¬ (k = 1 ∧ ∃ p, (p, hi.nbLayers) ∈ hi'.centers ∧ near p q ∧ hi.value hi.nbLayers p < lo.value 1 q) := by
    intro q k
    rw [t3, List.mem_filter]
    refine and_congr_right fun hq => ?_
    simp only [decide_eq_true_eq]
    by_cases hk : k = 1
    · subst hk
      have hb : lo.binary 1 q = true := (hlo.marks 1 q (le_refl _) hlo.pos (hlo.bounds _ hq).1).2 hq
      simp [hb, hkeep q hq]
    · simp [hk]
  refine ⟨hi', lo', r1, t1, wf', ?_, s2, t2, by rw [r3]; exact List.filter_sublist,
    by rw [t3]; exact List.filter_sublist, m3, m4⟩
  refine ⟨by rw [t2.1, t2.2.1]; exact hlo.size, by rw [t2.1]; exact hlo.pos, fun c hc => ?_, fun k p hk1 hk2 hp => ?_⟩
  · rw [t3] at hc
    rw [t2.1, t2.2.2.2.1]
    exact hlo.bounds c (List.mem_of_mem_filter hc)
  · rw [t2.1] at hk2
    rw [t2.2.2.2.1] at hp
    rw [t4, m4]
    show (lo.binary k p && _) = true ↔ _
    rw [Bool.and_eq_true, hlo.marks k p hk1 hk2 hp, decide_eq_true_eq]
    refine and_congr_right fun hm => ?_
    by_cases hk : k = 1
    · subst hk
      simp [hm, hkeep p hm]
    · simp [hk]

theorem mem_overlap (s bound x p : Nat) :
    p ∈ List.range' ((x - 1) * s) (min ((x + 1) * s) bound - (x - 1) * s) ↔
      p < bound ∧ x * s ≤ p + s ∧ p < (x + 1) * s := by
  rw [List.mem_range'_1]
  have h : (x - 1) * s = x * s - s := Nat.sub_one_mul x s
  rw [h]
  generalize x * s = a
  generalize (x + 1) * s = b
  omega

theorem round_near (s : Nat) (hs : 0 < s) (p : Nat) :
    (2 * p + s) / (2 * s) * s ≤ p + s ∧ p < ((2 * p + s) / (2 * s) + 1) * s := by
  have h1 := Nat.div_mul_le_self (2 * p + s) (2 * s)
  have h2 := Nat.lt_div_mul_add (a := 2 * p + s) (b := 2 * s) (by omega)
  have e1 : (2 * p + s) / (2 * s) * (2 * s) = 2 * ((2 * p + s) / (2 * s) * s) := by ring
  have e2 : ((2 * p + s) / (2 * s) + 1) * s = (2 * p + s) / (2 * s) * s + s := by ring
  rw [e1] at h1 h2
  rw [e2]
  omega

/-- The pixel `p` of an octave `s` times larger overlaps the pixel `q` or its neighbours. -/
def Overlaps (s p q : Nat) : Prop := q * s ≤ p + s ∧ p < (q + 1) * s

/-- **C118**, two dimensions: `hi.seam_binary(lo)` with `hi` `s` times larger, `s > 1`. A center of the last layer of
`hi` is removed iff the closest pixel of `lo` is a deeper center of the first layer. A center of the first layer of
`lo` is removed iff a remaining center of the last layer of `hi` overlaps it and is deeper. The other centers remain, in
the same order. No two centers of different depths remain at the same place; the binary images show the remaining
centers. -/
theorem C118_seam_2D_partial (width s : Nat) (hi lo : SeamSide G (Nat × Nat)) (hhi : hi.WF) (hlo : lo.WF)
    (hin : ∀ p, hi.inside p = true ↔ p.1 < hi.height ∧ p.2 < width)
    (hs : hi.height / lo.height = s) (h1 : 1 < s)
    (hpix : ∀ p, (p, hi.nbLayers) ∈ hi.centers →
      lo.inside ((2 * p.1 + s) / (2 * s), (2 * p.2 + s) / (2 * s)) = true) :
    ∃ hi' lo', seamBinary2 width hi lo = .ok (hi', lo') ∧ hi'.WF ∧ lo'.WF ∧
      hi'.centers.Sublist hi.centers ∧ lo'.centers.Sublist lo.centers ∧
      (∀ p k, (p, k) ∈ hi'.centers ↔ (p, k) ∈ hi.centers ∧
        ¬ (k = hi.nbLayers ∧ ∃ q, q = ((2 * p.1 + s) / (2 * s), (2 * p.2 + s) / (2 * s)) ∧ (q, 1) ∈ lo.centers ∧
          lo.value 1 q < hi.value k p)) ∧
      (∀ q k, (q, k) ∈ lo'.centers ↔ (q, k) ∈ lo.centers ∧
        ¬ (k = 1 ∧ ∃ p, (p, hi.nbLayers) ∈ hi'.centers ∧ (Overlaps s p.1 q.1 ∧ Overlaps s p.2 q.2) ∧
          hi.value hi.nbLayers p < lo.value 1 q)) ∧
      (∀ p q, (p, hi.nbLayers) ∈ hi'.centers → (q, 1) ∈ lo'.centers →
        q = ((2 * p.1 + s) / (2 * s), (2 * p.2 + s) / (2 * s)) →
        hi.value hi.nbLayers p = lo.value 1 q) := by
  have hl0 : lo.height ≠ 0 := by
    intro h0
    rw [h0, Nat.div_zero] at hs
    omega
  obtain ⟨hi', lo', r1, r2, r3, r4, r5, r6, r7, r8, r9, r10⟩ := seam_generic
    (fun p : Nat × Nat => (roundDiv (some s) p.1, roundDiv (some s) p.2))
    (fun p => do
      let js ← overlapRange (some s) width p.2
      let is ← overlapRange (some s) hi.height p.1
      pure (js.flatMap fun j => is.map fun i => (i, j)))
    (fun p => (List.range' ((p.2 - 1) * s) (min ((p.2 + 1) * s) width - (p.2 - 1) * s)).flatMap fun j =>
      (List.range' ((p.1 - 1) * s) (min ((p.1 + 1) * s) hi.height - (p.1 - 1) * s)).map fun i => (i, j))
    (fun p q => Overlaps s p.1 q.1 ∧ Overlaps s p.2 q.2) hi lo hhi hlo hpix (fun q _ => ⟨rfl, fun p => by
      rw [hin]
      simp only [List.mem_flatMap, List.mem_map, mem_overlap, Overlaps]
      constructor
      · rintro ⟨j, hj, i, hi, rfl⟩
        exact ⟨⟨hi.1, hj.1⟩, hi.2, hj.2⟩
      · rintro ⟨⟨a, b⟩, c, d⟩
        exact ⟨p.2, ⟨b, d⟩, p.1, ⟨a, c⟩, rfl⟩⟩)
  refine ⟨hi', lo', ?_, r3, r4, r7, r8, ?_, r10, ?_⟩
  · unfold seamBinary2 seamBinary
    rw [if_neg hl0]
    simp only [hs]
    rw [if_pos h1]
    simp only [pure_eq_ok]
    rw [r1, ok_bind]
    have e : hi'.height = hi.height := r5.2.2.1
    rw [e]
    simp only [pure_eq_ok] at r2
    rw [r2]
    rfl
  · intro p k
    rw [r9]
    simp only [exists_eq_left, roundDiv]
  · intro p q hp hq he
    rw [r9] at hp
    rw [r10] at hq
    have g1 := round_near s (by omega) p.1
    have g2 := round_near s (by omega) p.2
    by_contra hne
    rcases lt_or_gt_of_ne hne with hlt | hgt
    · refine hq.2 ⟨rfl, p, (r9 p _).2 hp, ?_, hlt⟩
      rw [he]
      exact ⟨g1, g2⟩
    · refine hp.2 ⟨rfl, ?_, ?_⟩
      · rw [he] at hq; exact hq.1
      · rw [he] at hgt; exact hgt

/-- **C118**, one dimension. -/
theorem C118_seam_1D_partial (s : Nat) (hi lo : SeamSide G Nat) (hhi : hi.WF) (hlo : lo.WF)
    (hin : ∀ p, hi.inside p = true ↔ p < hi.height)
    (hs : hi.height / lo.height = s) (h1 : 1 < s)
    (hpix : ∀ p, (p, hi.nbLayers) ∈ hi.centers → lo.inside ((2 * p + s) / (2 * s)) = true) :
    ∃ hi' lo', seamBinary1 hi lo = .ok (hi', lo') ∧ hi'.WF ∧ lo'.WF ∧
      hi'.centers.Sublist hi.centers ∧ lo'.centers.Sublist lo.centers ∧
      (∀ p k, (p, k) ∈ hi'.centers ↔ (p, k) ∈ hi.centers ∧
        ¬ (k = hi.nbLayers ∧ ∃ q, q = (2 * p + s) / (2 * s) ∧ (q, 1) ∈ lo.centers ∧
          lo.value 1 q < hi.value k p)) ∧
      (∀ q k, (q, k) ∈ lo'.centers ↔ (q, k) ∈ lo.centers ∧
        ¬ (k = 1 ∧ ∃ p, (p, hi.nbLayers) ∈ hi'.centers ∧ Overlaps s p q ∧
          hi.value hi.nbLayers p < lo.value 1 q)) ∧
      (∀ p q, (p, hi.nbLayers) ∈ hi'.centers → (q, 1) ∈ lo'.centers → q = (2 * p + s) / (2 * s) →
        hi.value hi.nbLayers p = lo.value 1 q) := by
  have hl0 : lo.height ≠ 0 := by
    intro h0
    rw [h0, Nat.div_zero] at hs
    omega
  obtain ⟨hi', lo', r1, r2, r3, r4, r5, r6, r7, r8, r9, r10⟩ := seam_generic
    (roundDiv (some s)) (overlapRange (some s) hi.height)
    (fun p => List.range' ((p - 1) * s) (min ((p + 1) * s) hi.height - (p - 1) * s))
    (fun p q => Overlaps s p q) hi lo hhi hlo hpix (fun q _ => ⟨rfl, fun p => by
      rw [hin, mem_overlap]
      rfl⟩)
  refine ⟨hi', lo', ?_, r3, r4, r7, r8, ?_, r10, ?_⟩
  · unfold seamBinary1 seamBinary
    rw [if_neg hl0]
    simp only [hs]
    rw [if_pos h1]
    simp only [pure_eq_ok]
    rw [r1, ok_bind]
    have e : hi'.height = hi.height := r5.2.2.1
    rw [e, r2]
    rfl
  · intro p k
    rw [r9]
    simp only [exists_eq_left, roundDiv]
  · intro p q hp hq he
    rw [r9] at hp
    rw [r10] at hq
    have g1 := round_near s (by omega) p
    by_contra hne
    rcases lt_or_gt_of_ne hne with hlt | hgt
    · refine hq.2 ⟨rfl, p, (r9 p _).2 hp, ?_, hlt⟩
      rw [he]
      exact g1
    · refine hp.2 ⟨rfl, ?_, ?_⟩
      · rw [he] at hq; exact hq.1
      · rw [he] at hgt; exact hgt

/-- **C118**, counterexample: two centers of the same depth at the same place both remain. -/
theorem C118_equal_counterexample (width s : Nat) (hi lo : SeamSide G (Nat × Nat)) (hhi : hi.WF) (hlo : lo.WF)
    (hin : ∀ p, hi.inside p = true ↔ p.1 < hi.height ∧ p.2 < width)
    (hs : hi.height / lo.height = s) (h1 : 1 < s) (p q : Nat × Nat)
    (hq : q = ((2 * p.1 + s) / (2 * s), (2 * p.2 + s) / (2 * s)))
    (hc : hi.centers = [(p, hi.nbLayers)]) (hd : lo.centers = [(q, 1)])
    (hv : hi.value hi.nbLayers p = lo.value 1 q) :
    ∃ hi' lo', seamBinary2 width hi lo = .ok (hi', lo') ∧ (p, hi.nbLayers) ∈ hi'.centers ∧ (q, 1) ∈ lo'.centers := by
  obtain ⟨hi', lo', r1, -, -, -, -, r2, r3, -⟩ := C118_seam_2D_partial width s hi lo hhi hlo hin hs h1 (fun p' hp' => by
    rw [hc, List.mem_singleton] at hp'
    have : p' = p := (Prod.mk.inj hp').1
    rw [this, ← hq]
    exact (hlo.bounds (q, 1) (by rw [hd]; simp)).1)
  refine ⟨hi', lo', r1, ?_, ?_⟩
  · rw [r2]
    refine ⟨by rw [hc]; simp, ?_⟩
    rintro ⟨-, q', rfl, -, hlt⟩
    rw [← hq, hv] at hlt
    exact lt_irrefl _ hlt
  · rw [r3]
    refine ⟨by rw [hd]; simp, ?_⟩
    rintro ⟨-, p', hp', -, hlt⟩
    rw [r2, hc, List.mem_singleton] at hp'
    have : p' = p := (Prod.mk.inj hp'.1).1
    rw [this, hv] at hlt
    exact lt_irrefl _ hlt

/-- **C118**, counterexample: called on the smaller octave with the larger one as argument, the factor is the integer
quotient 0 and its inverse is infinite. A center in the first layer of the smaller octave then leads to undefined
behaviour. -/
theorem C118_swapped_counterexample (width : Nat) (lo hi : SeamSide G (Nat × Nat)) (hlt : lo.height < hi.height)
    (q : Nat × Nat) (l : List ((Nat × Nat) × Nat)) (hq : lo.centers = (q, 1) :: l)
    (hno : ∀ c ∈ hi.centers, c.2 ≠ hi.nbLayers) :
    seamBinary2 width lo hi = .error .ub := by
  unfold seamBinary2 seamBinary
  rw [if_neg (by omega), Nat.div_eq_of_lt hlt]
  simp only [pure_eq_ok, Nat.not_lt_zero, if_false, if_true]
  have hstep : ∀ (l : List ((Nat × Nat) × Nat)) (st : SeamSide G (Nat × Nat)), st.nbLayers = hi.nbLayers →
      (∀ c ∈ l, c.2 ≠ hi.nbLayers) →
      ∃ st', l.foldlM (highTurn (fun p : Nat × Nat => (roundDiv none p.1, roundDiv none p.2)) lo) st = .ok st' := by
    intro l
    induction l with
    | nil => exact fun st _ _ => ⟨st, rfl⟩
    | cons c l ih =>
      intro st hn hc
      have e : highTurn (fun p : Nat × Nat => (roundDiv none p.1, roundDiv none p.2)) lo st c =
          .ok { st with centers := st.centers ++ [c] } := by
        unfold highTurn highTest
        rw [if_neg (by rw [hn]; exact hc c (by simp))]
        rfl
      rw [List.foldlM_cons, e]
      exact ih { st with centers := st.centers ++ [c] } hn (fun c' hc' => hc c' (by simp [hc']))
  obtain ⟨hi', e⟩ := hstep hi.centers { hi with centers := [] } rfl hno
  unfold highLoop
  rw [e, ok_bind]
  unfold lowLoop
  rw [hq, List.foldlM_cons]
  have : lowTurn (fun p : Nat × Nat => (overlapRange none width p.2).bind fun js =>
      (overlapRange none hi'.height p.1).bind fun is => Except.ok (js.flatMap fun j => is.map fun i => (i, j)))
      hi' { lo with centers := [] } (q, 1) = .error .ub := by
    unfold lowTurn SeamSide.bit SeamSide.layer
    rw [if_pos rfl]
    split
    · rw [ok_bind]
      split
      · rfl
      · rfl
    · rfl
  simp only [bind] at this ⊢
  rw [this]
  rfl

/-- **C118**, counterexample: in three dimensions the binary images have no pixel (the constructor calls
`OctaveFinder(0, 0, …)`, octavefinder.cpp:53, and does not replace them), so that a first center in the last layer of the
larger octave leads to undefined behaviour. -/
theorem C118_3D_counterexample (width depth : Nat) (hi lo : SeamSide G (Nat × Nat × Nat))
    (hs : 1 < hi.height / lo.height) (he : ∀ p, lo.inside p = false)
    (c : (Nat × Nat × Nat) × Nat) (l : List ((Nat × Nat × Nat) × Nat)) (hc : hi.centers = c :: l)
    (hn : c.2 = hi.nbLayers) : seamBinary3 width depth hi lo = .error .ub := by
  have hl0 : lo.height ≠ 0 := by
    intro h0
    rw [h0, Nat.div_zero] at hs
    omega
  unfold seamBinary3 seamBinary
  rw [if_neg hl0]
  simp only [ok_bind, pure_eq_ok]
  rw [if_pos hs]
  unfold highLoop
  rw [hc, List.foldlM_cons]
  have : highTurn (fun p : Nat × Nat × Nat => (roundDiv (some (hi.height / lo.height)) p.1,
      roundDiv (some (hi.height / lo.height)) p.2.1, roundDiv (some (hi.height / lo.height)) p.2.2)) lo
      { hi with centers := [] } c = .error .ub := by
    unfold highTurn highTest SeamSide.bit
    rw [if_pos hn, if_neg (by simp [he])]
    rfl
  rw [this]
  rfl

/-- Two octaves of 24 and 12 pixels with a center each, at the same place. -/
def exampleHi (v : Int) : SeamSide Int (Nat × Nat) where
  nbLayers := 3
  nbBinary := 3
  height := 24
  inside := fun p => decide (p.1 < 24 ∧ p.2 < 24)
  value := fun _ _ => v
  binary := fun k p => decide (k = 3 ∧ p = (10, 11))
  centers := [((10, 11), 3)]

def exampleLo (v : Int) : SeamSide Int (Nat × Nat) where
  nbLayers := 3
  nbBinary := 3
  height := 12
  inside := fun p => decide (p.1 < 12 ∧ p.2 < 12)
  value := fun _ _ => v
  binary := fun k p => decide (k = 1 ∧ p = (5, 6))
  centers := [((5, 6), 1)]

example : (exampleHi (-7)).WF ∧ (exampleLo (-5)).WF ∧
    (∀ p, (exampleHi (-7)).inside p = true ↔ p.1 < (exampleHi (-7)).height ∧ p.2 < 24) ∧
    (exampleHi (-7)).height / (exampleLo (-5)).height = 2 ∧
    (∀ p, (p, (exampleHi (-7)).nbLayers) ∈ (exampleHi (-7)).centers →
      (exampleLo (-5)).inside ((2 * p.1 + 2) / (2 * 2), (2 * p.2 + 2) / (2 * 2)) = true) := by
  refine ⟨⟨rfl, by decide, ?_, ?_⟩, ⟨rfl, by decide, ?_, ?_⟩, ?_, rfl, ?_⟩
  · simp [exampleHi]
  · intro k p _ _ _
    simp only [exampleHi, decide_eq_true_eq, List.mem_singleton, Prod.ext_iff]
    tauto
  · simp [exampleLo]
  · intro k p _ _ _
    simp only [exampleLo, decide_eq_true_eq, List.mem_singleton, Prod.ext_iff]
    tauto
  · simp [exampleHi]
  · intro p hp
    simp only [exampleHi, List.mem_singleton, Prod.ext_iff] at hp
    simp [exampleLo, hp.1.1, hp.1.2]

example : (exampleLo 1).height < (exampleHi 1).height ∧ (exampleLo 1).centers = [((5, 6), 1)] := ⟨by decide, rfl⟩

end Octave
end Colloids
