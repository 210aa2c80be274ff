import Verif.Mains.LostLemmas
import Verif.Traj.Props

/-! # The counts of neighbours lost or gained -/

namespace Colloids
namespace Mains

open Dyn (setDifference)

/-- At time `t` the trajectories `tr` and `tr'` are neighbours: there is a bond between their positions. -/
def NgbAt (ti : TrajIndex) (bonds : Nat → List Bond) (t tr tr' : Nat) : Prop :=
  ∃ p q, ti.convert t tr = .ok p ∧ ti.convert t tr' = .ok q ∧ Joined (bonds t) p q

open Classical in
/-- Number of the neighbours of `tr` at `t0` which are not its neighbours at `t1`. -/
noncomputable def nbLost (ti : TrajIndex) (bonds : Nat → List Bond) (tr t0 t1 : Nat) : Nat :=
  (List.range ti.trajs.length).countP
    (fun tr' => decide (NgbAt ti bonds t0 tr tr' ∧ ¬ NgbAt ti bonds t1 tr tr'))

open Classical in
/-- Number of the neighbours of `tr` at `t`. -/
noncomputable def nbNgbs (ti : TrajIndex) (bonds : Nat → List Bond) (tr t : Nat) : Nat :=
  (List.range ti.trajs.length).countP (fun tr' => decide (NgbAt ti bonds t tr tr'))

/-- An index as `makeInverse` builds it (see `C03_index_inverse`). -/
structure IndexOk (ti : TrajIndex) : Prop where
  inverse : ∀ t p tr, ti.invert t p = .ok tr ↔ ti.convert t tr = .ok p
  nonempty : ∀ T ∈ ti.trajs, T.steps ≠ []
  fits : ∀ T ∈ ti.trajs, T.start + T.steps.length ≤ ti.inverse.length
  size : ti.inverse.length < szMod

/-- Such an index, and a file of bonds for each frame, with at least a bond, whose ends are positions of the
frame. -/
structure LostOk (ti : TrajIndex) (bonds : Nat → List Bond) (files : Nat → Option (List Char)) : Prop
    extends IndexOk ti where
  file : ∀ t, t < ti.inverse.length → files t = some (writeBonds (bonds t)) ∧ bonds t ≠ []
  ends : ∀ (t : Nat) (inv : List Nat), ti.inverse[t]? = some inv → inv.length ≤ szMod ∧
    ∀ b ∈ bonds t, b.first < inv.length ∧ b.second < inv.length

variable {ti : TrajIndex} {bonds : Nat → List Bond} {files : Nat → Option (List Char)}

theorem invert_iff {t p tr : Nat} : ti.invert t p = .ok tr ↔ ∃ inv, ti.inverse[t]? = some inv ∧ inv[p]? = some tr := by
  unfold TrajIndex.invert
  rw [bind_ok]
  simp only [getR_ok]

theorem convert_iff {t tr p : Nat} : ti.convert t tr = .ok p ↔ ∃ T, ti.trajs[tr]? = some T ∧ T.at_ t = .ok p := by
  unfold TrajIndex.convert
  rw [bind_ok]
  simp only [getR_ok]

/-- The rows of a frame of neighbours. -/
theorem frame_ok (h : LostOk ti bonds files) {t : Nat} {inv : List Nat} (hi : ti.inverse[t]? = some inv) :
    ∃ frame, ngbFrame inv (files t) = .ok frame ∧ frame.length = inv.length ∧
      ∀ (tr p : Nat), ti.convert t tr = .ok p → ∃ row, frame[p]? = some row ∧ row.Pairwise (· < ·) ∧
        ∀ tr', tr' ∈ row ↔ NgbAt ti bonds t tr tr' := by
  have ht : t < ti.inverse.length := (List.getElem?_eq_some_iff.1 hi).1
  obtain ⟨hf, hne⟩ := h.file t ht
  obtain ⟨hn, hb⟩ := h.ends t inv hi
  obtain ⟨frame, h1, h2, h3⟩ := ngbFrame_ok hn hne hb
  refine ⟨frame, by rw [hf]; exact h1, h2, ?_⟩
  intro tr p hp
  obtain ⟨inv', hi', hp'⟩ := invert_iff.1 ((h.inverse t p tr).2 hp)
  rw [hi] at hi'; cases hi'
  have hpl : p < frame.length := by rw [h2]; exact (List.getElem?_eq_some_iff.1 hp').1
  obtain ⟨k1, k2⟩ := h3 p frame[p] (by simp)
  refine ⟨frame[p], by simp, k1, ?_⟩
  intro tr'
  rw [k2]
  constructor
  · rintro ⟨q, hq, hj⟩
    exact ⟨p, q, hp, (h.inverse t q tr').1 (invert_iff.2 ⟨inv, hi, hq⟩), hj⟩
  · rintro ⟨p', q, hp1, hq, hj⟩
    rw [hp] at hp1; cases hp1
    obtain ⟨inv', hi', hq'⟩ := invert_iff.1 ((h.inverse t q tr').2 hq)
    rw [hi] at hi'; cases hi'
    exact ⟨q, hq', hj⟩

theorem ngb_lt {t tr tr' : Nat} (h : NgbAt ti bonds t tr tr') : tr' < ti.trajs.length := by
  obtain ⟨_, q, _, hq, _⟩ := h
  obtain ⟨T, hT, _⟩ := convert_iff.1 hq
  exact (List.getElem?_eq_some_iff.1 hT).1

open Classical in
theorem difference_length {l l' : List Nat} (hl : l.Pairwise (· < ·)) (hl' : l'.Pairwise (· < ·)) {tr t0 t1 : Nat}
    (h : ∀ x, x ∈ l ↔ NgbAt ti bonds t0 tr x) (h' : ∀ x, x ∈ l' ↔ NgbAt ti bonds t1 tr x) :
    (setDifference l l').length = nbLost ti bonds tr t0 t1 := by
  unfold nbLost
  refine length_eq_countP (P := fun x => NgbAt ti bonds t0 tr x ∧ ¬ NgbAt ti bonds t1 tr x) ?_ ?_
  · exact hl.sublist (Dyn.setDifferenceAux_sublist _ _ _)
  · intro x
    unfold setDifference
    rw [Dyn.mem_setDifferenceAux _ l l' le_rfl hl hl', h, h']
    constructor
    · rintro ⟨h1, h2⟩; exact ⟨ngb_lt h1, h1, h2⟩
    · rintro ⟨_, h1, h2⟩; exact ⟨h1, h2⟩

/-- The trajectory at a position, and when it can be followed. -/
theorem at_time (h : IndexOk ti) {t p tr : Nat} (hp : ti.convert t tr = .ok p) :
    ∃ T, ti.trajs[tr]? = some T ∧ T.start ≤ t ∧ t ≤ T.lastTime ∧ T.lastTime < ti.inverse.length ∧
      T.lastTime + 1 = T.start + T.steps.length ∧
      ∀ t', T.start ≤ t' → t' ≤ T.lastTime → ∃ q, T.at_ t' = .ok q ∧ ti.convert t' tr = .ok q := by
  obtain ⟨T, hT, ha⟩ := convert_iff.1 hp
  have hm := List.mem_of_getElem? hT
  have hne := h.nonempty T hm
  have hf := h.fits T hm
  have hs := h.size
  have hpos : 0 < T.steps.length := List.length_pos_iff.2 hne
  have hl := lastTime_eq hne (by omega : T.start + T.steps.length ≤ szMod)
  rw [at_eq hne (by omega)] at ha
  have hlt := (List.getElem?_eq_some_iff.1 ha.2).1
  refine ⟨T, hT, ha.1, by omega, by omega, by omega, ?_⟩
  intro t' h1 h2
  have : t' - T.start < T.steps.length := by omega
  refine ⟨T.steps[t' - T.start], (at_eq hne (by omega)).2 ⟨h1, by simp [this]⟩, ?_⟩
  exact convert_iff.2 ⟨T, hT, (at_eq hne (by omega)).2 ⟨h1, by simp [this]⟩⟩

theorem mapM_spec {α β : Type} {f : α → R β} {P : α → β → Prop} : ∀ (l : List α),
    (∀ x ∈ l, ∃ y, f x = .ok y ∧ P x y) →
    ∃ out, l.mapM f = .ok out ∧ out.length = l.length ∧
      ∀ (i : Nat) (x : α), l[i]? = some x → ∃ y, out[i]? = some y ∧ P x y := by
  intro l
  induction l with
  | nil => intro _; exact ⟨[], rfl, rfl, by simp⟩
  | cons a l ih =>
    intro h
    obtain ⟨y, hy, hP⟩ := h a (by simp)
    obtain ⟨out, h1, h2, h3⟩ := ih (fun x hx => h x (by simp [hx]))
    refine ⟨y :: out, ?_, by simp [h2], ?_⟩
    · rw [List.mapM_cons, hy, ok_bind, h1, ok_bind]; rfl
    · intro i x hx
      cases i with
      | zero => simp at hx; subst hx; exact ⟨y, rfl, hP⟩
      | succ i => simpa using h3 i x (by simpa using hx)

/-- **C110** (part: files with at least a bond) The file that `dhlngb` writes for the time step `t` after `initial`
has a line for each position of the frame `initial`: the number of neighbours the particle had at `initial` and has
no more at `t`, or -1 if its trajectory ends before `t`. -/
theorem C110_lost_partial (h : LostOk ti bonds files) {initial : Nat} (hi : initial + 1 < ti.inverse.length) :
    ∃ out, dhlngb ti files ti.inverse.length initial = .ok out ∧
      out.length = ti.inverse.length - (initial + 1) ∧
      ∀ t, initial < t → t < ti.inverse.length → ∃ line inv, out[t - (initial + 1)]? = some line ∧
        ti.inverse[initial]? = some inv ∧ line.length = inv.length ∧
        ∀ p tr T, ti.convert initial tr = .ok p → ti.trajs[tr]? = some T →
          line[p]? = some (if t < T.start + T.steps.length then (nbLost ti bonds tr initial t : Int) else -1) := by
  have hs := h.size
  obtain ⟨inv, hinv⟩ : ∃ inv, ti.inverse[initial]? = some inv := ⟨ti.inverse[initial], by simp [show initial < ti.inverse.length by omega]⟩
  obtain ⟨first, f1, f2, f3⟩ := frame_ok h hinv
  have hstep : ∀ t, t < ti.inverse.length → ∃ line, (do
      let invt ← getR ti.inverse t
      let actual ← ngbFrame invt (files t)
      (List.range inv.length).mapM (dhEntry ti inv first actual t)) = .ok line ∧ line.length = inv.length ∧
      (initial < t → ∀ p tr T, ti.convert initial tr = .ok p → ti.trajs[tr]? = some T →
        line[p]? = some (if t < T.start + T.steps.length then (nbLost ti bonds tr initial t : Int) else -1)) ∨ t ≤ initial := by
    intro t ht
    by_cases hti : t ≤ initial
    · exact ⟨[], .inr hti⟩
    obtain ⟨invt, hinvt⟩ : ∃ invt, ti.inverse[t]? = some invt := ⟨ti.inverse[t], by simp [ht]⟩
    obtain ⟨actual, a1, a2, a3⟩ := frame_ok h hinvt
    have hentry : ∀ p ∈ List.range inv.length, ∃ y, dhEntry ti inv first actual t p = .ok y ∧
        ∀ tr T, ti.convert initial tr = .ok p → ti.trajs[tr]? = some T →
          y = if t < T.start + T.steps.length then (nbLost ti bonds tr initial t : Int) else -1 := by
      intro p hp
      rw [List.mem_range] at hp
      have htr : ti.convert initial inv[p] = .ok p :=
        (h.inverse initial p inv[p]).1 (invert_iff.2 ⟨inv, hinv, by simp [hp]⟩)
      obtain ⟨T, hT, t1, t2, t3, t4, t5⟩ := at_time h.toIndexOk htr
      have huniq : ∀ tr, ti.convert initial tr = .ok p → tr = inv[p] := by
        intro tr htr'
        obtain ⟨inv', hi', hp'⟩ := invert_iff.1 ((h.inverse initial p tr).2 htr')
        rw [hinv] at hi'; cases hi'
        rw [List.getElem?_eq_getElem hp] at hp'
        exact (Option.some.inj hp').symm
      unfold dhEntry
      rw [getR_of_lt hp, ok_bind, getR_ok.2 hT, ok_bind]
      by_cases hlast : t ≤ T.lastTime
      · obtain ⟨q, q1, q2⟩ := t5 t (by omega) hlast
        obtain ⟨row0, r1, r2, r3⟩ := f3 _ _ htr
        obtain ⟨row, s1, s2, s3⟩ := a3 _ _ q2
        rw [if_pos hlast, getR_ok.2 r1, ok_bind, q1, ok_bind, getR_ok.2 s1, ok_bind]
        refine ⟨_, rfl, ?_⟩
        intro tr T' htr' hT'
        rw [huniq tr htr'] at hT' ⊢
        rw [hT] at hT'; cases hT'
        rw [if_pos (by omega), difference_length r2 s2 r3 s3]
      · rw [if_neg hlast]
        refine ⟨_, rfl, ?_⟩
        intro tr T' htr' hT'
        rw [huniq tr htr'] at hT'
        rw [hT] at hT'; cases hT'
        rw [if_neg (by omega)]
    obtain ⟨line, l1, l2, l3⟩ := mapM_spec _ hentry
    refine ⟨line, .inl ⟨?_, by simpa using l2, ?_⟩⟩
    · rw [getR_ok.2 hinvt, ok_bind, a1, ok_bind, l1]
    · intro _ p tr T hp hT
      obtain ⟨inv', hi', hp'⟩ := invert_iff.1 ((h.inverse initial p tr).2 hp)
      rw [hinv] at hi'; cases hi'
      have hlt := (List.getElem?_eq_some_iff.1 hp').1
      obtain ⟨y, y1, y2⟩ := l3 p p (by simp [hlt])
      rw [y1, y2 tr T hp hT]
  obtain ⟨out, o1, o2, o3⟩ := mapM_spec (f := fun t => do
      let invt ← getR ti.inverse t
      let actual ← ngbFrame invt (files t)
      (List.range inv.length).mapM (dhEntry ti inv first actual t))
    (P := fun t line => line.length = inv.length ∧ ∀ p tr T, ti.convert initial tr = .ok p → ti.trajs[tr]? = some T →
        line[p]? = some (if t < T.start + T.steps.length then (nbLost ti bonds tr initial t : Int) else -1))
    (List.range' (initial + 1) (ti.inverse.length - (initial + 1))) (by
      intro t ht
      rw [List.mem_range'_1] at ht
      obtain ⟨line, ⟨l1, l2, l3⟩ | hc⟩ := hstep t (by omega)
      · exact ⟨line, l1, l2, l3 (by omega)⟩
      · omega)
  refine ⟨out, ?_, by simpa using o2, ?_⟩
  · unfold dhlngb
    rw [Nat.mod_eq_of_lt (by omega), if_neg (by omega), getR_ok.2 hinv, ok_bind, f1, ok_bind, o1]
  · intro t h1 h2
    obtain ⟨line, l1, l2, l3⟩ := o3 (t - (initial + 1)) t (by
      rw [List.getElem?_range' (by omega)]
      congr 1; omega)
    exact ⟨line, inv, l1, hinv, l2, l3⟩

/-- **C110** The argument must be before the last time step: otherwise `invalid_argument` is thrown. -/
theorem C110_refused {size initial : Nat} (hi : initial + 1 < szMod) (h : size ≤ initial + 1) :
    dhlngb ti files size initial = .error .invalidArgument := by
  unfold dhlngb
  rw [Nat.mod_eq_of_lt hi, if_pos h]

/-- **C110** is false for a frame without any bond: its file is empty and uninitialised numbers are used as
positions. -/
theorem C110_empty_counterexample {size initial : Nat} (hi : initial + 1 < size) (hs : size ≤ szMod)
    (hinv : initial < ti.inverse.length) (hf : files initial = some (writeBonds [])) :
    dhlngb ti files size initial = .error .ub := by
  unfold dhlngb
  rw [Nat.mod_eq_of_lt (by omega), if_neg (by omega), getR_of_lt hinv, ok_bind, hf]
  have : writeBonds [] = [] := rfl
  rw [this, ngbFrame_empty]
  rfl

/-- **C110** is false for a negative argument (-1 here), which is not refused. -/
theorem C110_negative_counterexample {size : Nat} (hs : 0 < size) (hl : ti.inverse.length < szMod) :
    dhlngb ti files size (szMod - 1) = .error .ub := by
  have : (szMod - 1 + 1) % szMod = 0 := by
    have : 0 < szMod := by simp [szMod]
    rw [Nat.sub_add_cancel this, Nat.mod_self]
  unfold dhlngb
  rw [this, if_neg (by omega), getR_eq_ub (by omega)]
  rfl

/-! ### Between `t0` and `t0 + tau` -/

theorem allNgbs_ok (h : LostOk ti bonds files) : ∃ dyn, allNgbs ti files = .ok dyn ∧
    ∀ t tr p T, ti.convert t tr = .ok p → ti.trajs[tr]? = some T → ∃ row, ngbsOf dyn T t = .ok row ∧
      row.Pairwise (· < ·) ∧ ∀ tr', tr' ∈ row ↔ NgbAt ti bonds t tr tr' := by
  obtain ⟨dyn, d1, d2, d3⟩ := mapM_spec (f := fun x : List Nat × Nat => ngbFrame x.1 (files x.2))
    (P := fun x frame => ∀ tr p, ti.convert x.2 tr = .ok p → ∃ row, frame[p]? = some row ∧
      row.Pairwise (· < ·) ∧ ∀ tr', tr' ∈ row ↔ NgbAt ti bonds x.2 tr tr') ti.inverse.zipIdx (by
    rintro ⟨inv, t⟩ hx
    have hi := List.mem_zipIdx_iff_getElem?.1 hx
    obtain ⟨frame, f1, -, f3⟩ := frame_ok h hi
    exact ⟨frame, f1, f3⟩)
  refine ⟨dyn, d1, ?_⟩
  intro t tr p T hp hT
  obtain ⟨inv, hi, -⟩ := invert_iff.1 ((h.inverse t p tr).2 hp)
  obtain ⟨frame, f1, f2⟩ := d3 t (inv, t) (by
    rw [List.getElem?_zipIdx, hi]
    simp)
  obtain ⟨row, r1, r2, r3⟩ := f2 tr p hp
  refine ⟨row, ?_, r2, r3⟩
  obtain ⟨T', hT', ha⟩ := convert_iff.1 hp
  rw [hT] at hT'; cases hT'
  unfold ngbsOf
  rw [getR_ok.2 f1, ok_bind, ha, ok_bind, getR_ok.2 r1]

/-- **C111** (part) The file of `lostngb` for `t0` has a line for each position of the frame `t0`: the number of
neighbours of the particle at `t0 + tau` which were not its neighbours at `t0`, that is those it has gained, or -1 if
its trajectory ends before `t0 + tau`. -/
theorem C111_post_partial (h : LostOk ti bonds files) {tau : Nat} (ht : tau ≤ ti.inverse.length) :
    ∃ out, postLost ti files tau = .ok out ∧ out.length = ti.inverse.length - tau ∧
      ∀ t0, t0 + tau < ti.inverse.length → ∃ line inv, out[t0]? = some line ∧
        ti.inverse[t0]? = some inv ∧ line.length = inv.length ∧
        ∀ p tr T, ti.convert t0 tr = .ok p → ti.trajs[tr]? = some T →
          line[p]? = some (if t0 + tau < T.start + T.steps.length then (nbLost ti bonds tr (t0 + tau) t0 : Int)
            else -1) := by
  have hs := h.size
  have hb : (ti.inverse.length + (szMod - tau)) % szMod = ti.inverse.length - tau := by
    have : ti.inverse.length + (szMod - tau) = ti.inverse.length - tau + szMod := by omega
    rw [this, Nat.add_mod_right, Nat.mod_eq_of_lt (by omega)]
  obtain ⟨dyn, d1, d2⟩ := allNgbs_ok h
  obtain ⟨out, o1, o2, o3⟩ := mapM_spec (f := fun t0 => do
      let inv ← getR ti.inverse t0
      inv.mapM (postEntry ti dyn tau t0))
    (P := fun t0 line => ∃ inv, ti.inverse[t0]? = some inv ∧ line.length = inv.length ∧
      ∀ p tr T, ti.convert t0 tr = .ok p → ti.trajs[tr]? = some T →
        line[p]? = some (if t0 + tau < T.start + T.steps.length then (nbLost ti bonds tr (t0 + tau) t0 : Int)
          else -1)) (List.range (ti.inverse.length - tau)) (by
    intro t0 ht0
    rw [List.mem_range] at ht0
    obtain ⟨inv, hinv⟩ : ∃ inv, ti.inverse[t0]? = some inv :=
      ⟨ti.inverse[t0], by simp [show t0 < ti.inverse.length by omega]⟩
    obtain ⟨line, l1, l2, l3⟩ := mapM_spec (f := postEntry ti dyn tau t0)
      (P := fun tr y => ∀ T, ti.trajs[tr]? = some T →
        y = if t0 + tau < T.start + T.steps.length then (nbLost ti bonds tr (t0 + tau) t0 : Int) else -1) inv (by
      intro tr htr
      obtain ⟨p, hp⟩ := List.mem_iff_getElem?.1 htr
      have hc : ti.convert t0 tr = .ok p := (h.inverse t0 p tr).1 (invert_iff.2 ⟨inv, hinv, hp⟩)
      obtain ⟨T, hT, t1, t2, t3, t4, t5⟩ := at_time h.toIndexOk hc
      unfold postEntry
      rw [getR_ok.2 hT, ok_bind, Nat.mod_eq_of_lt (by omega : t0 + tau < szMod)]
      by_cases hlast : t0 + tau ≤ T.lastTime
      · obtain ⟨q, q1, q2⟩ := t5 (t0 + tau) (by omega) hlast
        obtain ⟨l, a1, a2, a3⟩ := d2 _ _ _ _ q2 hT
        obtain ⟨e, b1, b2, b3⟩ := d2 _ _ _ _ hc hT
        rw [if_pos hlast, a1, ok_bind, b1, ok_bind]
        refine ⟨_, rfl, ?_⟩
        intro T' hT'
        rw [hT] at hT'; cases hT'
        rw [if_pos (by omega), difference_length a2 b2 a3 b3]
      · rw [if_neg hlast]
        refine ⟨_, rfl, ?_⟩
        intro T' hT'
        rw [hT] at hT'; cases hT'
        rw [if_neg (by omega)])
    refine ⟨line, by rw [getR_ok.2 hinv, ok_bind, l1], inv, hinv, l2, ?_⟩
    intro p tr T hp hT
    obtain ⟨inv', hi', hp'⟩ := invert_iff.1 ((h.inverse t0 p tr).2 hp)
    rw [hinv] at hi'; cases hi'
    obtain ⟨y, y1, y2⟩ := l3 p tr hp'
    rw [y1, y2 T hT])
  refine ⟨out, ?_, by simpa using o2, ?_⟩
  · unfold postLost
    rw [d1, ok_bind, hb, o1]
  · intro t0 ht0
    obtain ⟨line, l1, inv, l2, l3⟩ := o3 t0 t0 (List.getElem?_range (by omega))
    exact ⟨line, inv, l1, l2, l3⟩

/-- Neighbours lost, gained, before and after. -/
theorem lost_gained (ti : TrajIndex) (bonds : Nat → List Bond) (tr t0 t1 : Nat) :
    nbLost ti bonds tr t0 t1 + nbNgbs ti bonds tr t1 = nbLost ti bonds tr t1 t0 + nbNgbs ti bonds tr t0 := by
  classical
  unfold nbLost nbNgbs
  induction List.range ti.trajs.length with
  | nil => simp
  | cons x l ih =>
    simp only [List.countP_cons]
    by_cases h0 : NgbAt ti bonds t0 tr x <;> by_cases h1 : NgbAt ti bonds t1 tr x <;>
      simp only [h0, h1, not_true_eq_false, not_false_eq_true, and_self, and_true, and_false, decide_true,
        decide_false, if_true, Bool.false_eq_true, if_false] <;> omega

/-- **C111** is false in general: what `lostngb` writes is the number of neighbours lost between `t0` and
`t0 + tau` exactly when the particle has as many neighbours at both times. -/
theorem C111_lost_counterexample (h : LostOk ti bonds files) {tau t0 p tr : Nat} {T : Traj}
    (hp : ti.convert t0 tr = .ok p) (hT : ti.trajs[tr]? = some T)
    (hl : t0 + tau < T.start + T.steps.length) :
    ∃ out line v, postLost ti files tau = .ok out ∧ out[t0]? = some line ∧ line[p]? = some v ∧
      (v = (nbLost ti bonds tr t0 (t0 + tau) : Int) ↔ nbNgbs ti bonds tr t0 = nbNgbs ti bonds tr (t0 + tau)) := by
  have hf := h.fits T (List.mem_of_getElem? hT)
  obtain ⟨out, o1, -, o3⟩ := C111_post_partial h (tau := tau) (by omega)
  obtain ⟨line, inv, l1, -, -, l4⟩ := o3 t0 (by omega)
  refine ⟨out, line, _, o1, l1, l4 p tr T hp hT, ?_⟩
  rw [if_pos hl]
  have := lost_gained ti bonds tr t0 (t0 + tau)
  constructor
  · intro e
    have e : nbLost ti bonds tr (t0 + tau) t0 = nbLost ti bonds tr t0 (t0 + tau) := by exact_mod_cast e
    omega
  · intro e
    have : nbLost ti bonds tr (t0 + tau) t0 = nbLost ti bonds tr t0 (t0 + tau) := by omega
    rw [this]

/-- **C111** is false for an interval longer than the film: the number of time steps minus the interval wraps
around, and the frame after the last one is used. -/
theorem C111_interval_counterexample (h : LostOk ti bonds files) {tau : Nat} (ht : ti.inverse.length < tau)
    (htau : ti.inverse.length + tau < szMod) : postLost ti files tau = .error .ub := by
  have hs := h.size
  obtain ⟨dyn, d1, d2⟩ := allNgbs_ok h
  obtain ⟨out, o1, -, -⟩ := mapM_spec (f := fun t0 => do
      let inv ← getR ti.inverse t0
      inv.mapM (postEntry ti dyn tau t0)) (P := fun _ _ => True) (List.range ti.inverse.length) (by
    intro t0 ht0
    rw [List.mem_range] at ht0
    obtain ⟨line, l1, -, -⟩ := mapM_spec (f := postEntry ti dyn tau t0) (P := fun _ _ => True) ti.inverse[t0] (by
      intro tr htr
      obtain ⟨p, hp⟩ := List.mem_iff_getElem?.1 htr
      have hc : ti.convert t0 tr = .ok p := (h.inverse t0 p tr).1 (invert_iff.2 ⟨_, by simp [ht0], hp⟩)
      obtain ⟨T, hT, t1, t2, t3, t4, t5⟩ := at_time h.toIndexOk hc
      unfold postEntry
      rw [getR_ok.2 hT, ok_bind, Nat.mod_eq_of_lt (by omega : t0 + tau < szMod), if_neg (by omega)]
      exact ⟨_, rfl, trivial⟩)
    refine ⟨line, by rw [getR_of_lt ht0, ok_bind, l1], trivial⟩)
  have hb : ∃ k, (ti.inverse.length + (szMod - tau)) % szMod = ti.inverse.length + (k + 1) :=
    ⟨szMod - tau - 1, by rw [Nat.mod_eq_of_lt (by omega)]; omega⟩
  obtain ⟨k, hk⟩ := hb
  unfold postLost
  rw [d1, ok_bind, hk, List.range_add, List.mapM_append, o1, ok_bind]
  rw [List.range_succ_eq_map, List.map_cons, List.mapM_cons,
    getR_eq_ub (i := ti.inverse.length + 0) (Nat.le_add_right _ _)]
  rfl

/-! ### Around `t0` -/

/-- **C111** (part) The file of `traj2vtk` for `t0` has for each position of the frame `t0` the number of neighbours
the particle has gained between the times `start` and `stop`, the closest to `t0 - tau/2` and `t0 + tau/2` at which
its trajectory exists. -/
theorem C111_around_partial (h : LostOk ti bonds files) (tau : Nat) :
    ∃ out, aroundLost ti files tau = .ok out ∧ out.length = ti.inverse.length ∧
      ∀ t0, t0 < ti.inverse.length → ∃ line inv, out[t0]? = some line ∧
        ti.inverse[t0]? = some inv ∧ line.length = inv.length ∧
        ∀ p tr T, ti.convert t0 tr = .ok p → ti.trajs[tr]? = some T →
          line[p]? = some (nbLost ti bonds tr (min (T.start + T.steps.length - 1) (t0 + tau / 2))
            (max T.start (t0 - tau / 2))) := by
  have hs := h.size
  have hsame : ∀ tr t, nbLost ti bonds tr t t = 0 := by
    intro tr t
    unfold nbLost
    rw [List.countP_eq_zero]
    intro x _
    simp
  obtain ⟨dyn, d1, d2⟩ := allNgbs_ok h
  obtain ⟨out, o1, o2, o3⟩ := mapM_spec (f := fun t0 => do
      let inv ← getR ti.inverse t0
      inv.mapM (aroundEntry ti dyn tau t0))
    (P := fun t0 line => ∃ inv, ti.inverse[t0]? = some inv ∧ line.length = inv.length ∧
      ∀ p tr T, ti.convert t0 tr = .ok p → ti.trajs[tr]? = some T →
        line[p]? = some (nbLost ti bonds tr (min (T.start + T.steps.length - 1) (t0 + tau / 2))
            (max T.start (t0 - tau / 2)))) (List.range ti.inverse.length) (by
    intro t0 ht0
    rw [List.mem_range] at ht0
    obtain ⟨inv, hinv⟩ : ∃ inv, ti.inverse[t0]? = some inv := ⟨ti.inverse[t0], by simp [ht0]⟩
    obtain ⟨line, l1, l2, l3⟩ := mapM_spec (f := aroundEntry ti dyn tau t0)
      (P := fun tr y => ∀ T, ti.trajs[tr]? = some T →
        y = nbLost ti bonds tr (min (T.start + T.steps.length - 1) (t0 + tau / 2))
            (max T.start (t0 - tau / 2))) inv (by
      intro tr htr
      obtain ⟨p, hp⟩ := List.mem_iff_getElem?.1 htr
      have hc : ti.convert t0 tr = .ok p := (h.inverse t0 p tr).1 (invert_iff.2 ⟨inv, hinv, hp⟩)
      obtain ⟨T, hT, t1, t2, t3, t4, t5⟩ := at_time h.toIndexOk hc
      have e1 : max (T.start + tau / 2) t0 - tau / 2 = max T.start (t0 - tau / 2) := by omega
      have e2 : T.lastTime = T.start + T.steps.length - 1 := by omega
      unfold aroundEntry
      rw [getR_ok.2 hT, ok_bind]
      dsimp only
      rw [e1]
      by_cases hne : max T.start (t0 - tau / 2) ≠ min T.lastTime (t0 + tau / 2)
      · obtain ⟨q, -, q2⟩ := t5 (min T.lastTime (t0 + tau / 2)) (by omega) (by omega)
        obtain ⟨q', -, q2'⟩ := t5 (max T.start (t0 - tau / 2)) (by omega) (by omega)
        obtain ⟨l, a1, a2, a3⟩ := d2 _ _ _ _ q2 hT
        obtain ⟨e, b1, b2, b3⟩ := d2 _ _ _ _ q2' hT
        rw [if_pos hne, a1, ok_bind, b1, ok_bind]
        refine ⟨_, rfl, ?_⟩
        intro T' hT'
        rw [hT] at hT'; cases hT'
        rw [difference_length a2 b2 a3 b3, e2]
      · rw [if_neg hne]
        refine ⟨_, rfl, ?_⟩
        intro T' hT'
        rw [hT] at hT'; cases hT'
        rw [← e2, not_not.1 hne, hsame])
    refine ⟨line, by rw [getR_ok.2 hinv, ok_bind, l1], inv, hinv, l2, ?_⟩
    intro p tr T hp hT
    obtain ⟨inv', hi', hp'⟩ := invert_iff.1 ((h.inverse t0 p tr).2 hp)
    rw [hinv] at hi'; cases hi'
    obtain ⟨y, y1, y2⟩ := l3 p tr hp'
    rw [y1, y2 T hT])
  refine ⟨out, ?_, by simpa using o2, ?_⟩
  · unfold aroundLost
    rw [d1, ok_bind, o1]
  · intro t0 ht0
    obtain ⟨line, l1, inv, l2, l3⟩ := o3 t0 t0 (List.getElem?_range (by omega))
    exact ⟨line, inv, l1, l2, l3⟩

/-! ### An example -/

/-- Three particles, the positions of the last two being exchanged in the second frame. -/
def threeTrajs : TrajIndex :=
  { trajs := [⟨0, [0, 0]⟩, ⟨0, [1, 2]⟩, ⟨0, [2, 1]⟩], inverse := [[0, 1, 2], [0, 2, 1]] }

/-- The particle 0 touches 1 and 2, then only 1 (which is then at the position 2). -/
def threeBonds (t : Nat) : List Bond := if t = 0 then [⟨0, 1⟩, ⟨0, 2⟩] else [⟨0, 2⟩]

def threeFiles (t : Nat) : Option (List Char) := some (writeBonds (threeBonds t))

theorem three_ok : LostOk threeTrajs threeBonds threeFiles := by
  have hinv : ∀ (t : Nat) (inv : List Nat), threeTrajs.inverse[t]? = some inv →
      (t = 0 ∧ inv = [0, 1, 2]) ∨ (t = 1 ∧ inv = [0, 2, 1]) := by
    intro t inv h
    match t with
    | 0 => simp [threeTrajs] at h; exact .inl ⟨rfl, h.symm⟩
    | 1 => simp [threeTrajs] at h; exact .inr ⟨rfl, h.symm⟩
    | t + 2 => simp [threeTrajs] at h
  have hat : ∀ (T : Traj), T ∈ threeTrajs.trajs → T.start = 0 ∧ T.steps.length = 2 := by decide
  have hsz : 10 ≤ szMod := by simp [szMod]
  refine ⟨⟨?_, ?_, ?_, ?_⟩, ?_, ?_⟩
  · intro t p tr
    rw [invert_iff, convert_iff]
    have hlt : ∀ T ∈ threeTrajs.trajs, ∀ (t p : Nat), T.at_ t = .ok p ↔ T.steps[t]? = some p := by
      intro T hT t p
      obtain ⟨h1, h2⟩ := hat T hT
      rw [at_eq (by intro e; rw [e] at h2; simp at h2) (by omega), h1]
      simp
    have hr : (∃ T, threeTrajs.trajs[tr]? = some T ∧ T.at_ t = .ok p) ↔
        ∃ T, threeTrajs.trajs[tr]? = some T ∧ T.steps[t]? = some p := by
      constructor
      · rintro ⟨T, h1, h2⟩; exact ⟨T, h1, (hlt T (List.mem_of_getElem? h1) t p).1 h2⟩
      · rintro ⟨T, h1, h2⟩; exact ⟨T, h1, (hlt T (List.mem_of_getElem? h1) t p).2 h2⟩
    rw [hr]
    unfold threeTrajs
    rcases t with _ | _ | t <;> rcases p with _ | _ | _ | p <;> rcases tr with _ | _ | _ | tr <;> simp
  · decide
  · decide
  · simp [threeTrajs]; omega
  · intro t _
    exact ⟨rfl, by unfold threeBonds; split <;> simp⟩
  · intro t inv h
    rcases hinv t inv h with ⟨rfl, rfl⟩ | ⟨rfl, rfl⟩
    · exact ⟨by simp; omega, by decide⟩
    · exact ⟨by simp; omega, by decide⟩

example : threeFiles 0 = some "0 1\n0 2\n".toList ∧ threeFiles 1 = some "0 2\n".toList := by decide +kernel

theorem three_convert {t tr p : Nat} : threeTrajs.convert t tr = .ok p ↔
    ∃ inv, threeTrajs.inverse[t]? = some inv ∧ inv[p]? = some tr := by
  rw [← three_ok.inverse, invert_iff]

theorem three_ngb (t tr' : Nat) : NgbAt threeTrajs threeBonds t 0 tr' ↔
    (t = 0 ∧ (tr' = 1 ∨ tr' = 2)) ∨ (t = 1 ∧ tr' = 1) := by
  unfold NgbAt
  constructor
  · rintro ⟨p, q, hp, hq, b, hb, hj⟩
    rw [three_convert] at hp hq
    obtain ⟨inv, hi, hp⟩ := hp
    obtain ⟨inv', hi', hq⟩ := hq
    rw [hi] at hi'; cases hi'
    match t with
    | 0 =>
      have hi : inv = [0, 1, 2] := by simpa [threeTrajs, eq_comm] using hi
      subst hi
      simp [threeBonds] at hb
      clear hi
      rcases hb with rfl | rfl <;> rcases hj with ⟨rfl, rfl⟩ | ⟨rfl, rfl⟩ <;> simp at hp hq ⊢ <;> omega
    | 1 =>
      have hi : inv = [0, 2, 1] := by simpa [threeTrajs, eq_comm] using hi
      subst hi
      simp [threeBonds] at hb
      subst hb
      clear hi
      rcases hj with ⟨rfl, rfl⟩ | ⟨rfl, rfl⟩ <;> simp at hp hq ⊢ <;> omega
    | t + 2 => simp [threeTrajs] at hi
  · rintro (⟨rfl, rfl | rfl⟩ | ⟨rfl, rfl⟩)
    · exact ⟨0, 1, three_convert.2 ⟨_, rfl, rfl⟩, three_convert.2 ⟨_, rfl, rfl⟩, ⟨0, 1⟩, by decide, .inl ⟨rfl, rfl⟩⟩
    · exact ⟨0, 2, three_convert.2 ⟨_, rfl, rfl⟩, three_convert.2 ⟨_, rfl, rfl⟩, ⟨0, 2⟩, by decide, .inl ⟨rfl, rfl⟩⟩
    · exact ⟨0, 2, three_convert.2 ⟨_, rfl, rfl⟩, three_convert.2 ⟨_, rfl, rfl⟩, ⟨0, 2⟩, by decide, .inl ⟨rfl, rfl⟩⟩

/-- Between the two frames the particle 0 loses a neighbour (`dhlngb` writes 1 for it) and gains none (`lostngb`
writes 0). -/
example : nbLost threeTrajs threeBonds 0 0 1 = 1 ∧ nbLost threeTrajs threeBonds 0 1 0 = 0 ∧
    nbNgbs threeTrajs threeBonds 0 0 = 2 ∧ nbNgbs threeTrajs threeBonds 0 1 = 1 := by
  unfold nbLost nbNgbs
  have : List.range threeTrajs.trajs.length = [0, 1, 2] := rfl
  rw [this]
  simp [three_ngb]

end Mains
end Colloids
