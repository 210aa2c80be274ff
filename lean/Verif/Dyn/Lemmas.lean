import Verif.Dyn.Model
import Verif.Traj.IndexLemmas
import Verif.DynField.Lemmas
import Verif.Boo.FieldLemmas
import Verif.Index.Lemmas
import Mathlib.Algebra.Order.Field.Basic
import Mathlib.Algebra.BigOperators.Group.List.Basic
import Mathlib.Tactic.Linarith
import Mathlib.Tactic.Ring
import Mathlib.Tactic.FieldSimp

/-! # Lemmas on the dynamics of particles -/

namespace Colloids
namespace Dyn

variable {G : Type} [Field G] [LinearOrder G]

/-- What the containers of a `DynamicParticles` must satisfy: the trajectories are not empty and end before
the last frame, the inverse index has the sizes of the frames and is the inverse of the trajectories.
`link` ensures it. -/
structure Wf (D : DynParts G) : Prop where
  nonempty : ∀ T ∈ D.trajectories.trajs, T.steps ≠ []
  fits : ∀ T ∈ D.trajectories.trajs, T.start + T.steps.length ≤ D.positions.length
  size : D.positions.length ≤ 2 ^ 64
  frames : D.trajectories.inverse.map List.length = D.positions.map (fun ps => ps.pos.length)
  inverse : ∀ t p tr, D.trajectories.invert t p = .ok tr ↔ D.trajectories.convert t tr = .ok p

/-- Trajectory `tr` exists at time `t`. -/
def Exists (D : DynParts G) (tr t : Nat) : Prop :=
  ∃ T, D.trajectories.trajs[tr]? = some T ∧ T.start ≤ t ∧ t < T.start + T.steps.length

omit [Field G] [LinearOrder G] in
theorem Wf.fits' {D : DynParts G} (h : Wf D) {T : Traj} (hT : T ∈ D.trajectories.trajs) :
    T.start + T.steps.length ≤ szMod := by
  have := h.fits T hT
  have := h.size
  simp only [szMod]
  omega

omit [Field G] [LinearOrder G] in
theorem convert_ok {D : DynParts G} (h : Wf D) {tr t p : Nat} :
    D.trajectories.convert t tr = .ok p ↔ ∃ T, D.trajectories.trajs[tr]? = some T ∧ T.start ≤ t ∧
      T.steps[t - T.start]? = some p := by
  unfold TrajIndex.convert
  rw [bind_ok]
  constructor
  · rintro ⟨T, h1, h2⟩
    rw [getR_ok] at h1
    have hT := List.mem_of_getElem? h1
    have := (at_eq (h.nonempty T hT) (h.fits' hT)).1 h2
    exact ⟨T, h1, this.1, this.2⟩
  · rintro ⟨T, h1, h2, h3⟩
    have hT := List.mem_of_getElem? h1
    exact ⟨T, getR_ok.2 h1, (at_eq (h.nonempty T hT) (h.fits' hT)).2 ⟨h2, h3⟩⟩

omit [Field G] [LinearOrder G] in
theorem exists_iff_convert {D : DynParts G} (h : Wf D) {tr t : Nat} :
    Exists D tr t ↔ ∃ p, D.trajectories.convert t tr = .ok p := by
  simp only [convert_ok h]
  constructor
  · rintro ⟨T, h1, h2, h3⟩
    exact ⟨T.steps[t - T.start]'(by omega), T, h1, h2, by simp⟩
  · rintro ⟨p, T, h1, h2, h3⟩
    have := (List.getElem?_eq_some_iff.1 h3).1
    exact ⟨T, h1, h2, by omega⟩

omit [Field G] [LinearOrder G] in
theorem Wf.row {D : DynParts G} (h : Wf D) {t : Nat} {ps : Particles G} (hps : D.positions[t]? = some ps) :
    ∃ row, D.trajectories.inverse[t]? = some row ∧ row.length = ps.pos.length := by
  have := congrArg (fun l => l[t]?) h.frames
  simp only [List.getElem?_map, hps, Option.map_some] at this
  cases hr : D.trajectories.inverse[t]? with
  | none => rw [hr] at this; simp at this
  | some row => rw [hr] at this; exact ⟨row, rfl, by simpa using this⟩

omit [Field G] [LinearOrder G] in
theorem invert_ok {ti : TrajIndex} {t p tr : Nat} :
    ti.invert t p = .ok tr ↔ ∃ row, ti.inverse[t]? = some row ∧ row[p]? = some tr := by
  unfold TrajIndex.invert
  rw [bind_ok]
  simp only [getR_ok]

omit [Field G] [LinearOrder G] in
theorem exists_iff_mem {D : DynParts G} (h : Wf D) {tr t : Nat} {row : List Nat}
    (hr : D.trajectories.inverse[t]? = some row) : Exists D tr t ↔ tr ∈ row := by
  rw [exists_iff_convert h]
  simp only [← h.inverse, invert_ok, hr]
  rw [List.mem_iff_getElem?]
  constructor
  · rintro ⟨p, row', e, hp⟩
    cases e
    exact ⟨p, hp⟩
  · rintro ⟨p, hp⟩
    exact ⟨p, row, rfl, hp⟩

omit [Field G] [LinearOrder G] in
theorem Wf.frame_of_exists {D : DynParts G} (h : Wf D) {tr t : Nat} (he : Exists D tr t) :
    t < D.positions.length := by
  obtain ⟨T, h1, -, h2⟩ := he
  have := h.fits T (List.mem_of_getElem? h1)
  omega

theorem at_of_convert {D : DynParts G} (h : Wf D) {tr t p : Nat}
    (hp : D.trajectories.convert t tr = .ok p) :
    ∃ ps, ∃ x, D.positions[t]? = some ps ∧ ps.pos[p]? = some x ∧ at_ D tr t = .ok x := by
  have ht := h.frame_of_exists ((exists_iff_convert h).2 ⟨p, hp⟩)
  have hps : D.positions[t]? = some D.positions[t] := by simp [ht]
  obtain ⟨row, hr, hl⟩ := h.row hps
  obtain ⟨row', hr', hi⟩ := invert_ok.1 ((h.inverse t p tr).2 hp)
  rw [hr] at hr'
  cases hr'
  have hlt := (List.getElem?_eq_some_iff.1 hi).1
  rw [hl] at hlt
  refine ⟨_, D.positions[t].pos[p], hps, by simp, ?_⟩
  unfold at_
  unfold TrajIndex.convert at hp
  rw [bind_ok] at hp
  obtain ⟨T, hT, hT2⟩ := hp
  rw [hT, ok_bind, hT2, ok_bind, getR_of_lt ht, ok_bind, getR_of_lt hlt]

theorem at_ok {D : DynParts G} (h : Wf D) {tr t : Nat} : Exists D tr t ↔ ∃ x, at_ D tr t = .ok x := by
  constructor
  · intro he
    obtain ⟨p, hp⟩ := (exists_iff_convert h).1 he
    obtain ⟨ps, x, -, -, hx⟩ := at_of_convert h hp
    exact ⟨x, hx⟩
  · rintro ⟨x, hx⟩
    unfold at_ at hx
    rw [bind_ok] at hx
    obtain ⟨T, h1, h2⟩ := hx
    rw [bind_ok] at h2
    obtain ⟨p, h2, -⟩ := h2
    rw [exists_iff_convert h]
    exact ⟨p, by unfold TrajIndex.convert; rw [h1, ok_bind, h2]⟩

theorem mem_setIntersection' {l l' : List Nat} (hl : l.Pairwise (· < ·)) (hl' : l'.Pairwise (· < ·))
    (x : Nat) : x ∈ Boo.setIntersection l l' ↔ x ∈ l ∧ x ∈ l' :=
  Boo.mem_setIntersectionAux _ _ _ (le_refl _) hl hl' x

theorem setIntersection_sorted {l l' : List Nat} (hl : l.Pairwise (· < ·)) :
    (Boo.setIntersection l l').Pairwise (· < ·) :=
  hl.sublist (Boo.setIntersectionAux_sublist _ _ _)

theorem mapM_getElem? {α β : Type} {f : α → R β} : ∀ {l : List α} {l' : List β}, l.mapM f = .ok l' →
    ∀ {i : Nat} {x : α}, l[i]? = some x → ∃ y, l'[i]? = some y ∧ f x = .ok y := by
  intro l
  induction l with
  | nil => intro l' _ i x hx; simp at hx
  | cons a l ih =>
    intro l' h i x hx
    rw [List.mapM_cons] at h
    obtain ⟨b, hb, h⟩ := bind_ok.1 h
    obtain ⟨m, hm, h⟩ := bind_ok.1 h
    cases h
    cases i with
    | zero =>
      simp only [List.getElem?_cons_zero, Option.some.injEq] at hx
      subst hx
      exact ⟨b, rfl, hb⟩
    | succ i => exact ih hm (by simpa using hx)

/-- `std::set_difference` of strictly sorted ranges. -/
theorem mem_setDifferenceAux (fuel : Nat) (l l' : List Nat) (hf : l.length + l'.length ≤ fuel)
    (hl : l.Pairwise (· < ·)) (hl' : l'.Pairwise (· < ·)) (x : Nat) :
    x ∈ setDifferenceAux fuel l l' ↔ x ∈ l ∧ x ∉ l' := by
  induction fuel generalizing l l' with
  | zero =>
    have : l = [] := by
      rw [← List.length_eq_zero_iff]; omega
    simp [setDifferenceAux, this]
  | succ fuel ih =>
    match l, l' with
    | [], l' => simp [setDifferenceAux]
    | a :: l, [] => simp [setDifferenceAux]
    | a :: l, b :: l' =>
      rw [List.pairwise_cons] at hl hl'
      simp only [List.length_cons] at hf
      unfold setDifferenceAux
      split
      · rename_i hab
        rw [List.mem_cons, ih l (b :: l') (by simp; omega) hl.2 (List.pairwise_cons.2 hl')]
        simp only [List.mem_cons]
        constructor
        · rintro (rfl | ⟨h1, h2⟩)
          · refine ⟨.inl rfl, ?_⟩
            rintro (h | h)
            · omega
            · have := hl'.1 _ h; omega
          · exact ⟨.inr h1, h2⟩
        · rintro ⟨h1 | h1, h2⟩
          · exact .inl h1
          · exact .inr ⟨h1, h2⟩
      · split
        · rename_i hab hba
          rw [ih (a :: l) l' (by simp; omega) (List.pairwise_cons.2 hl) hl'.2]
          simp only [List.mem_cons]
          constructor
          · rintro ⟨h1, h2⟩
            refine ⟨h1, ?_⟩
            rintro (h | h)
            · subst h
              rcases h1 with h1 | h1
              · omega
              · have := hl.1 _ h1; omega
            · exact h2 h
          · rintro ⟨h1, h2⟩
            exact ⟨h1, fun h => h2 (.inr h)⟩
        · have hab : a = b := by omega
          subst hab
          rw [ih l l' (by omega) hl.2 hl'.2]
          simp only [List.mem_cons]
          constructor
          · rintro ⟨h1, h2⟩
            refine ⟨.inr h1, ?_⟩
            rintro (h | h)
            · subst h; have := hl.1 _ h1; omega
            · exact h2 h
          · rintro ⟨h1 | h1, h2⟩
            · exact absurd (.inl h1) h2
            · exact ⟨h1, fun h => h2 (.inr h)⟩

theorem setDifferenceAux_sublist (fuel : Nat) (l l' : List Nat) :
    (setDifferenceAux fuel l l').Sublist l := by
  induction fuel generalizing l l' with
  | zero => simp [setDifferenceAux]
  | succ fuel ih =>
    match l, l' with
    | [], l' => simp [setDifferenceAux]
    | a :: l, [] => simp [setDifferenceAux]
    | a :: l, b :: l' =>
      unfold setDifferenceAux
      split
      · exact (ih l (b :: l')).cons_cons a
      · split
        · exact ih (a :: l) l'
        · exact (ih l l').cons a

/-! ## Drift -/

theorem partialSumFrom_length {V : Type} [Add V] (l : List V) (acc : V) :
    (partialSumFrom acc l).length = l.length := by
  induction l generalizing acc with
  | nil => rfl
  | cons x l ih => simp [partialSumFrom, ih]

theorem partialSum_length {V : Type} [Add V] (l : List V) : (partialSum l).length = l.length := by
  cases l with
  | nil => rfl
  | cons x l => simp [partialSum, partialSumFrom_length]

theorem partialSumFrom_step {V : Type} [Add V] (l : List V) (acc : V) (t : Nat) (x : V)
    (hx : l[t]? = some x) :
    ∃ y, (acc :: partialSumFrom acc l)[t]? = some y ∧ (partialSumFrom acc l)[t]? = some (y + x) := by
  induction l generalizing acc t with
  | nil => simp at hx
  | cons z l ih =>
    cases t with
    | zero =>
      simp only [List.getElem?_cons_zero, Option.some.injEq] at hx
      subst hx
      exact ⟨acc, rfl, rfl⟩
    | succ t =>
      simp only [List.getElem?_cons_succ] at hx
      obtain ⟨y, h1, h2⟩ := ih (acc + z) t hx
      exact ⟨y, h1, h2⟩

theorem partialSum_step {V : Type} [Add V] (l : List V) (t : Nat) (x : V) (hx : l[t + 1]? = some x) :
    ∃ y, (partialSum l)[t]? = some y ∧ (partialSum l)[t + 1]? = some (y + x) := by
  cases l with
  | nil => simp at hx
  | cons z l => exact partialSumFrom_step l z t x (by simpa using hx)

theorem getDriftOf_eq {D : DynParts G} {sel : List Nat} {t0 t1 : Nat} {f : Nat → Nat → Coord G}
    (hf : ∀ tr ∈ sel, at_ D tr t0 = .ok (f tr t0) ∧ at_ D tr t1 = .ok (f tr t1)) :
    getDriftOf D sel t0 t1 = .ok (if sel.length < 2 then 0 else
      fun a => (sel.map (fun tr => f tr t1 - f tr t0)).sum a / (sel.length : G)) := by
  unfold getDriftOf
  split
  · rfl
  · have : sel.foldlM (fun (drift : Coord G) tr => do
        let diff ← getDiff D tr t0 tr t1
        pure (drift + diff)) 0 = .ok (0 + (sel.map (fun tr => f tr t1 - f tr t0)).sum) := by
      apply Boo.foldlM_add
      intro acc tr htr
      unfold getDiff
      rw [(hf tr htr).2, ok_bind, (hf tr htr).1, ok_bind]
      rfl
    rw [this, ok_bind, zero_add]
    rfl

theorem foldl_min_le (l : List (Coord G)) (m : Coord G) (a : Fin 3) :
    let r := l.foldl (fun (m : Coord G) d => fun a => if d a < m a then d a else m a) m
    r a ≤ m a ∧ (∀ d ∈ l, r a ≤ d a) ∧ (r a = m a ∨ ∃ d ∈ l, r a = d a) := by
  induction l generalizing m with
  | nil => simp
  | cons x l ih =>
    simp only [List.foldl_cons]
    obtain ⟨h1, h2, h3⟩ := ih (fun a => if x a < m a then x a else m a)
    refine ⟨?_, ?_, ?_⟩
    · refine le_trans h1 ?_
      split
      · rename_i h; exact le_of_lt h
      · exact le_refl _
    · intro d hd
      rcases List.mem_cons.1 hd with rfl | hd
      · refine le_trans h1 ?_
        split
        · exact le_refl _
        · rename_i h; exact not_lt.1 h
      · exact h2 d hd
    · rcases h3 with h3 | ⟨d, hd, h3⟩
      · split at h3
        · exact .inr ⟨x, by simp, h3⟩
        · exact .inl h3
      · exact .inr ⟨d, by simp [hd], h3⟩

/-- Access after a translation of each frame. -/
theorem at_translate {D D' : DynParts G} (v : Nat → Coord G) (htr : D'.trajectories = D.trajectories)
    (hpos : ∀ t : Nat, D'.positions[t]? = (D.positions[t]?).map (fun ps : Particles G => ps.translate (v t))) (tr t : Nat) :
    at_ D' tr t = (at_ D tr t).map (fun x => x + v t) := by
  unfold at_
  rw [htr]
  cases getR D.trajectories.trajs tr with
  | error e => rfl
  | ok T =>
    rw [ok_bind, ok_bind]
    cases T.at_ t with
    | error e => rfl
    | ok p =>
      rw [ok_bind, ok_bind]
      cases hps : D.positions[t]? with
      | none =>
        have h1 : getR D.positions t = .error .ub := by unfold getR; rw [hps]
        have h2 : getR D'.positions t = .error .ub := by unfold getR; rw [hpos, hps]; rfl
        rw [h1, h2]; rfl
      | some ps =>
        have h1 : getR D.positions t = .ok ps := getR_ok.2 hps
        have h2 : getR D'.positions t = .ok (ps.translate (v t)) :=
          getR_ok.2 (by rw [hpos, hps]; rfl)
        rw [h1, h2, ok_bind, ok_bind]
        unfold getR Particles.translate
        simp only [List.getElem?_map]
        cases ps.pos[p]? <;> rfl

end Dyn
end Colloids
