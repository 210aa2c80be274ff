import Verif.CommonLemmas
import Verif.Traj.Model
import Mathlib.Data.List.Induction

/-! # Helper lemmas for `TrajMap` -/

namespace Colloids

namespace Frame

theorem mem_link_of_mem {f : Frame} {l x : Nat × Nat} (h : x ∈ f) : x ∈ f.link l := by
  unfold link; split <;> simp [h]

theorem mem_link {f : Frame} {l x : Nat × Nat} (h : x ∈ f.link l) : x ∈ f ∨ x = l := by
  unfold link at h; split at h
  · exact .inl h
  · simpa using h

/-- No two links of the frame share a position or a trajectory. -/
def Inj (f : Frame) : Prop := (f.map Prod.fst).Nodup ∧ (f.map Prod.snd).Nodup

theorem link_inj {f : Frame} (l : Nat × Nat) (h : f.Inj) : (f.link l).Inj := by
  unfold link; split
  · exact h
  · rename_i hc
    simp only [List.any_eq_true, Bool.or_eq_true, beq_iff_eq, not_exists, not_and, not_or] at hc
    constructor
    · rw [List.map_append, List.nodup_append]
      refine ⟨h.1, by simp, ?_⟩
      intro a ha b hb
      simp at hb; subst hb
      rw [List.mem_map] at ha
      obtain ⟨x, hx, rfl⟩ := ha
      exact (hc x hx).1
    · rw [List.map_append, List.nodup_append]
      refine ⟨h.2, by simp, ?_⟩
      intro a ha b hb
      simp at hb; subst hb
      rw [List.mem_map] at ha
      obtain ⟨x, hx, rfl⟩ := ha
      exact (hc x hx).2

theorem link_fresh {f : Frame} {l : Nat × Nat} (h1 : l.1 ∉ f.map Prod.fst)
    (h2 : l.2 ∉ f.map Prod.snd) : f.link l = f ++ [l] := by
  unfold link
  rw [if_neg]
  simp only [List.any_eq_true, Bool.or_eq_true, beq_iff_eq, not_exists, not_and, not_or]
  intro x hx
  exact ⟨fun h => h1 (List.mem_map.2 ⟨x, hx, h⟩), fun h => h2 (List.mem_map.2 ⟨x, hx, h⟩)⟩

theorem byCoord_perm (f : Frame) : f.byCoord.Perm f := List.mergeSort_perm _ _
theorem byTraj_perm (f : Frame) : f.byTraj.Perm f := List.mergeSort_perm _ _

theorem mem_byCoord {f : Frame} {x} : x ∈ f.byCoord ↔ x ∈ f := (byCoord_perm f).mem_iff
theorem mem_byTraj {f : Frame} {x} : x ∈ f.byTraj ↔ x ∈ f := (byTraj_perm f).mem_iff

theorem byTraj_sorted (f : Frame) : f.byTraj.Pairwise (fun a b => a.2 ≤ b.2) := by
  have := List.pairwise_mergeSort (le := fun (a b : Nat × Nat) => decide (a.2 ≤ b.2))
    (by intro a b c; simp; omega) (by intro a b; simp; omega) f
  simpa [byTraj] using this

theorem byCoord_sorted (f : Frame) : f.byCoord.Pairwise (fun a b => a.1 ≤ b.1) := by
  have := List.pairwise_mergeSort (le := fun (a b : Nat × Nat) => decide (a.1 ≤ b.1))
    (by intro a b c; simp; omega) (by intro a b; simp; omega) f
  simpa [byCoord] using this

end Frame

namespace TrajMap

/-- State of the greedy insertion loop after the entries `pot` in order. -/
def greedy {D : Type} (pot : List (D × (Nat × Nat))) : Frame :=
  pot.foldl (fun f dl => Frame.link f dl.2) []

theorem greedy_concat {D : Type} (pot : List (D × (Nat × Nat))) (x) :
    greedy (pot ++ [x]) = (greedy pot).link x.2 := by
  simp [greedy, List.foldl_append]

theorem greedy_inj {D : Type} (pot : List (D × (Nat × Nat))) : (greedy pot).Inj := by
  induction pot using List.reverseRecOn with
  | nil => simp [greedy, Frame.Inj]
  | append_singleton l x ih => rw [greedy_concat]; exact Frame.link_inj _ ih

theorem greedy_sub {D : Type} (pot : List (D × (Nat × Nat))) {l} (h : l ∈ greedy pot) :
    ∃ d, (d, l) ∈ pot := by
  induction pot using List.reverseRecOn with
  | nil => simp [greedy] at h
  | append_singleton ls x ih =>
    rw [greedy_concat] at h
    rcases Frame.mem_link h with h | h
    · obtain ⟨d, hd⟩ := ih h; exact ⟨d, by simp [hd]⟩
    · exact ⟨x.1, by subst h; simp⟩

theorem greedy_stable {D : Type} [LinearOrder D] (pot : List (D × (Nat × Nat)))
    (hs : pot.Pairwise (fun a b => a.1 ≤ b.1)) {d l} (h : (d, l) ∈ pot) :
    ∃ d' l', (d', l') ∈ pot ∧ l' ∈ greedy pot ∧ d' ≤ d ∧ (l'.1 = l.1 ∨ l'.2 = l.2) := by
  induction pot using List.reverseRecOn generalizing d l with
  | nil => simp at h
  | append_singleton ls x ih =>
    rw [List.pairwise_append] at hs
    obtain ⟨hs1, -, hs2⟩ := hs
    rw [greedy_concat]
    rcases List.mem_append.1 h with h | h
    · obtain ⟨d', l', h1, h2, h3, h4⟩ := ih hs1 h
      exact ⟨d', l', by simp [h1], Frame.mem_link_of_mem h2, h3, h4⟩
    · simp only [List.mem_singleton] at h
      subst h
      by_cases hc : (greedy ls).any (fun y => y.1 == l.1 || y.2 == l.2)
      · have hc' := hc
        simp only [List.any_eq_true, Bool.or_eq_true, beq_iff_eq] at hc'
        obtain ⟨y, hy, hyc⟩ := hc'
        obtain ⟨d', hd'⟩ := greedy_sub ls hy
        exact ⟨d', y, by simp [hd'], Frame.mem_link_of_mem hy, hs2 _ hd' (d, l) (by simp), hyc⟩
      · exact ⟨d, l, by simp, by simp [Frame.link, hc], le_refl _, .inl rfl⟩

/-- Everything about the candidate multimap. -/
theorem potentialLinks_ok {D : Type} [LinearOrder D] {last : Frame} {fol : Followers D}
    {pot} (h : potentialLinks last fol = .ok pot) :
    pot.Pairwise (fun a b => a.1 ≤ b.1) ∧
    (∀ d q tr, (d, (q, tr)) ∈ pot ↔
      ∃ p row, (p, tr) ∈ last ∧ fol[p]? = some row ∧ (d, q) ∈ row) ∧
    (∀ p tr, (p, tr) ∈ last → p < fol.length) := by
  unfold potentialLinks at h
  have key : ∀ (l : Frame) (m m' : List (D × (Nat × Nat))),
      l.foldlM (fun m ptr => do
        let row ← getR fol ptr.1
        return mmInsertAll m (row.map fun (df : D × Nat) => (df.1, (df.2, ptr.2)))) m = .ok m' →
      m.Pairwise (fun a b => a.1 ≤ b.1) →
      m'.Pairwise (fun a b => a.1 ≤ b.1) ∧
      (∀ d q tr, (d, (q, tr)) ∈ m' ↔ (d, (q, tr)) ∈ m ∨
        ∃ p row, (p, tr) ∈ l ∧ fol[p]? = some row ∧ (d, q) ∈ row) ∧
      (∀ p tr, (p, tr) ∈ l → p < fol.length) := by
    intro l
    induction l with
    | nil => intro m m' h hs; simp at h; subst h; simp [hs]
    | cons x xs ih =>
      intro m m' h hs
      rw [List.foldlM_cons, bind_ok] at h
      obtain ⟨m1, h1, h2⟩ := h
      rw [bind_ok] at h1
      obtain ⟨row, hrow, h1⟩ := h1
      rw [getR_ok] at hrow
      simp only [pure_eq_ok, Except.ok.injEq] at h1
      subst h1
      obtain ⟨i1, i2, i3⟩ := ih _ _ h2 (mmInsertAll_sorted _ _ hs)
      refine ⟨i1, ?_, ?_⟩
      · intro d q tr
        rw [i2, (mmInsertAll_perm _ _).mem_iff, List.mem_append]
        constructor
        · rintro ((h | h) | ⟨p, r, h1, h2, h3⟩)
          · exact .inl h
          · rw [List.mem_map] at h
            obtain ⟨⟨d', q'⟩, hm, he⟩ := h
            simp only [Prod.mk.injEq] at he
            obtain ⟨rfl, rfl, rfl⟩ := he
            exact .inr ⟨x.1, row, by simp, hrow, hm⟩
          · exact .inr ⟨p, r, by simp [h1], h2, h3⟩
        · rintro (h | ⟨p, r, h1, hr2, h3⟩)
          · exact .inl (.inl h)
          · rcases List.mem_cons.1 h1 with h1 | h1
            · subst h1
              simp only at hrow
              have hrr : row = r := by rw [hrow] at hr2; exact Option.some.inj hr2
              subst hrr
              exact .inl (.inr (List.mem_map.2 ⟨(d, q), h3, rfl⟩))
            · exact .inr ⟨p, r, h1, hr2, h3⟩
      · intro p tr hp
        rcases List.mem_cons.1 hp with hp | hp
        · subst hp
          exact (List.getElem?_eq_some_iff.1 hrow).1
        · exact i3 p tr hp
  obtain ⟨k1, k2, k3⟩ := key _ _ _ h (by simp)
  refine ⟨k1, ?_, ?_⟩
  · intro d q tr; rw [k2]; simp [Frame.mem_byCoord]
  · intro p tr hp; exact k3 p tr (Frame.mem_byCoord.2 hp)

theorem potentialLinks_total {D : Type} [LinearOrder D] {last : Frame} {fol : Followers D}
    (h : ∀ x ∈ last, x.1 < fol.length) : ∃ pot, potentialLinks last fol = .ok pot := by
  unfold potentialLinks
  obtain ⟨b, hb, -⟩ := foldlM_ok_of_forall (fun _ => True) (f := fun m (ptr : Nat × Nat) => do
        let row ← getR fol ptr.1
        return mmInsertAll m (row.map fun (df : D × Nat) => (df.1, (df.2, ptr.2)))) last.byCoord [] trivial
    (by
      intro b _ a ha
      rw [getR_of_lt (h a (Frame.mem_byCoord.1 ha))]
      exact ⟨_, rfl, trivial⟩)
  exact ⟨b, hb⟩

theorem setFlags_ok {n : Nat} (l : List (Nat × Nat)) :
    ∀ (b : List Bool) {b'}, b.length = n →
    l.foldlM (fun (l : List Bool) p => setR l p.1 true) b = .ok b' →
    b'.length = n ∧ (∀ p, p < n → (b'[p]? = some false ↔ b[p]? = some false ∧ p ∉ l.map Prod.fst)) ∧
    (∀ x ∈ l, x.1 < n) := by
  induction l with
  | nil => intro b b' hb h; simp at h; subst h; simp [hb]
  | cons x xs ih =>
    intro b b' hb h
    rw [List.foldlM_cons, bind_ok] at h
    obtain ⟨b1, h1, h2⟩ := h
    rw [setR_ok] at h1
    obtain ⟨hx, rfl⟩ := h1
    obtain ⟨i1, i2, i3⟩ := ih (b.set x.1 true) (by simp [hb]) h2
    refine ⟨i1, ?_, ?_⟩
    · intro p hp
      rw [i2 p hp, List.getElem?_set]
      by_cases hxp : x.1 = p
      · subst hxp; simp [hx]
      · simp [hxp, Ne.symm hxp]
    · intro y hy
      rcases List.mem_cons.1 hy with rfl | hy
      · omega
      · exact i3 y hy

theorem linkedFlags_ok {frame : Frame} {n : Nat} {flags} (h : linkedFlags frame n = .ok flags) :
    flags.length = n ∧ (∀ p, p < n → (flags[p]? = some false ↔ p ∉ frame.map Prod.fst)) ∧
    (∀ x ∈ frame, x.1 < n) := by
  unfold linkedFlags at h
  obtain ⟨h1, h2, h3⟩ := setFlags_ok (n := n) _ _ (by simp) h
  refine ⟨h1, ?_, fun x hx => h3 x (Frame.mem_byCoord.2 hx)⟩
  intro p hp
  rw [h2 p hp, ((Frame.byCoord_perm frame).map _).mem_iff]
  simp [List.getElem?_replicate, hp]

theorem linkedFlags_total {frame : Frame} {n : Nat} (h : ∀ x ∈ frame, x.1 < n) :
    ∃ flags, linkedFlags frame n = .ok flags := by
  unfold linkedFlags
  obtain ⟨b, hb, -⟩ := foldlM_ok_of_forall (fun b : List Bool => b.length = n)
    (f := fun (l : List Bool) (p : Nat × Nat) => setR l p.1 true)
    frame.byCoord (List.replicate n false) (by simp)
    (by
      intro b hb a ha
      refine ⟨b.set a.1 true, ?_, by simp [hb]⟩
      rw [setR_ok]; exact ⟨by rw [hb]; exact h a (Frame.mem_byCoord.1 ha), rfl⟩)
  exact ⟨b, hb⟩

/-- Closed form of the loop that starts new trajectories. -/
theorem startNew_eq {flags : List Bool} {frame : Frame} {nb : Nat}
    (hfl : ∀ p, p < flags.length → (flags[p]? = some false ↔ p ∉ frame.map Prod.fst))
    (hnb : ∀ x ∈ frame, x.2 < nb) :
    startNew flags frame nb =
      (frame ++ (((List.range flags.length).filter (fun p => p ∉ frame.map Prod.fst)).zipIdx nb),
       nb + ((List.range flags.length).filter (fun p => p ∉ frame.map Prod.fst)).length) := by
  unfold startNew
  have key : ∀ m, m ≤ flags.length →
      (List.range m).foldl
        (fun (s : Frame × Nat) p =>
          if flags[p]? = some false then (Frame.link s.1 (p, s.2), s.2 + 1) else s) (frame, nb) =
      (frame ++ (((List.range m).filter (fun p => p ∉ frame.map Prod.fst)).zipIdx nb),
       nb + ((List.range m).filter (fun p => p ∉ frame.map Prod.fst)).length) := by
    intro m
    induction m with
    | zero => simp
    | succ m ih =>
      intro hm
      rw [List.range_succ, List.foldl_append, ih (by omega), List.filter_append]
      simp only [List.foldl_cons, List.foldl_nil]
      by_cases hp : m ∈ frame.map Prod.fst
      · have : ¬ flags[m]? = some false := by rw [hfl m (by omega)]; simpa using hp
        rw [if_neg this]
        simp only [List.filter_cons, List.filter_nil, hp, not_true_eq_false, decide_false,
          Bool.false_eq_true, if_false, List.append_nil]
      · have : flags[m]? = some false := by rw [hfl m (by omega)]; exact hp
        rw [if_pos this]
        have h1 : (List.filter (fun p => decide (p ∉ frame.map Prod.fst)) [m]) = [m] := by
          simp only [List.filter_cons, List.filter_nil, hp, not_false_eq_true, decide_true, if_true]
        rw [h1, List.zipIdx_append, List.length_append]
        rw [Frame.link_fresh]
        · simp [Nat.add_assoc]
        · rw [List.map_append, List.mem_append, not_or]
          refine ⟨hp, ?_⟩
          rw [List.zipIdx_map_fst]
          simp
        · rw [List.map_append, List.mem_append, not_or]
          constructor
          · simp only [List.mem_map, not_exists, not_and]
            intro x hx he
            have := hnb x hx
            omega
          · rw [List.mem_map]
            rintro ⟨⟨a, b⟩, hx, rfl⟩
            have := List.snd_lt_of_mem_zipIdx hx
            simp only at this
            omega
  exact key _ (le_refl _)

/-- What is known of a frame: it assigns exactly the positions below `n`, one to one, to
trajectories below `nb`. -/
structure FrameOK (n nb : Nat) (f : Frame) : Prop where
  inj : f.Inj
  pos : ∀ p, p ∈ f.map Prod.fst ↔ p < n
  traj : ∀ x ∈ f, x.2 < nb

theorem FrameOK.mono {n nb nb' f} (h : FrameOK n nb f) (hle : nb ≤ nb') : FrameOK n nb' f :=
  ⟨h.inj, h.pos, fun x hx => lt_of_lt_of_le (h.traj x hx) hle⟩

theorem FrameOK.length {n nb f} (h : FrameOK n nb f) : f.length = n := by
  have : (f.map Prod.fst).Perm (List.range n) := by
    rw [List.perm_ext_iff_of_nodup h.inj.1 List.nodup_range]
    intro a; rw [h.pos]; simp
  simpa using this.length_eq

theorem zipIdx_snd (l : List α) (k : Nat) : (l.zipIdx k).map Prod.snd = List.range' k l.length := by
  induction l generalizing k with
  | nil => rfl
  | cons a l ih => simp [ih, List.range'_succ]

/-- Everything a successful `push_back` does, in one statement. -/
theorem pushBack_spec {D : Type} [LinearOrder D] {tm tm' : TrajMap} {fol : Followers D} {n : Nat}
    (h : tm.pushBack fol n = .ok tm')
    (hlast : ∀ last, backR tm.bm = .ok last → ∀ x ∈ last, x.2 < tm.nbTraj) :
    ∃ last pot, backR tm.bm = .ok last ∧ potentialLinks last fol = .ok pot ∧
      (∀ x ∈ greedy pot, x.1 < n) ∧ (∀ x ∈ greedy pot, x.2 < tm.nbTraj) ∧
      (∀ x ∈ last, x.1 < fol.length) ∧
      let unl := (List.range n).filter (fun p => p ∉ (greedy pot).map Prod.fst)
      tm' = ⟨tm.bm ++ [greedy pot ++ unl.zipIdx tm.nbTraj], tm.nbTraj + unl.length⟩ := by
  unfold pushBack at h
  rw [bind_ok] at h; obtain ⟨last, hl, h⟩ := h
  rw [bind_ok] at h; obtain ⟨pot, hp, h⟩ := h
  rw [bind_ok] at h; obtain ⟨flags, hf, h⟩ := h
  simp only [pure_eq_ok, Except.ok.injEq] at h
  change linkedFlags (greedy pot) n = .ok flags at hf
  obtain ⟨f1, f2, f3⟩ := linkedFlags_ok hf
  obtain ⟨p1, p2, p3⟩ := potentialLinks_ok hp
  have htr : ∀ x ∈ greedy pot, x.2 < tm.nbTraj := by
    intro x hx
    obtain ⟨d, hd⟩ := greedy_sub pot hx
    obtain ⟨p, row, h1, -, -⟩ := (p2 d x.1 x.2).1 hd
    exact hlast last hl (p, x.2) h1
  refine ⟨last, pot, hl, hp, f3, htr, fun x hx => p3 x.1 x.2 hx, ?_⟩
  change TrajMap.mk (tm.bm ++ [(startNew flags (greedy pot) tm.nbTraj).1])
    (startNew flags (greedy pot) tm.nbTraj).2 = tm' at h
  rw [startNew_eq (by rw [f1]; exact f2) htr, f1] at h
  exact h.symm

theorem newFrame_ok {g : Frame} {n nb : Nat} (hinj : g.Inj) (hpos : ∀ x ∈ g, x.1 < n)
    (htr : ∀ x ∈ g, x.2 < nb) :
    let unl := (List.range n).filter (fun p => p ∉ g.map Prod.fst)
    FrameOK n (nb + unl.length) (g ++ unl.zipIdx nb) := by
  intro unl
  refine ⟨⟨?_, ?_⟩, ?_, ?_⟩
  · rw [List.map_append, List.zipIdx_map_fst, List.nodup_append]
    refine ⟨hinj.1, List.Nodup.filter _ List.nodup_range, ?_⟩
    intro a ha b hb he
    subst he
    simp only [unl, List.mem_filter, decide_eq_true_eq] at hb
    exact hb.2 ha
  · rw [List.map_append, zipIdx_snd, List.nodup_append]
    refine ⟨hinj.2, List.nodup_range', ?_⟩
    intro a ha b hb he
    subst he
    rw [List.mem_map] at ha
    obtain ⟨x, hx, rfl⟩ := ha
    have := htr x hx
    simp only [List.mem_range'_1] at hb
    omega
  · intro p
    rw [List.map_append, List.zipIdx_map_fst, List.mem_append]
    constructor
    · rintro (h | h)
      · rw [List.mem_map] at h
        obtain ⟨x, hx, rfl⟩ := h
        exact hpos x hx
      · simp only [unl, List.mem_filter, List.mem_range] at h; exact h.1
    · intro h
      by_cases hp : p ∈ g.map Prod.fst
      · exact .inl hp
      · exact .inr (by simp only [unl, List.mem_filter, List.mem_range, decide_eq_true_eq]; exact ⟨h, hp⟩)
  · intro x hx
    rcases List.mem_append.1 hx with hx | hx
    · have := htr x hx; omega
    · have := List.snd_lt_of_mem_zipIdx hx
      omega

theorem init_frame (n : Nat) :
    (List.range n).foldl (fun f i => Frame.link f (i, i)) [] = (List.range n).map (fun i => (i, i)) := by
  induction n with
  | zero => rfl
  | succ n ih =>
    rw [List.range_succ, List.foldl_append, ih, List.map_append]
    simp only [List.foldl_cons, List.foldl_nil]
    rw [Frame.link_fresh] <;> simp

/-- Invariant of a linking history: `sizes` are the declared frame sizes. -/
structure Inv (sizes : List Nat) (tm : TrajMap) : Prop where
  len : tm.bm.length = sizes.length
  pos : 0 < tm.bm.length
  frame : ∀ t (h : t < tm.bm.length), FrameOK (sizes[t]'(len ▸ h)) tm.nbTraj tm.bm[t]
  used : ∀ tr, tr < tm.nbTraj → ∃ t, ∃ h : t < tm.bm.length, tr ∈ (tm.bm[t]).map Prod.snd

theorem Inv.last_traj {sizes tm} (h : Inv sizes tm) :
    ∀ last, backR tm.bm = .ok last → ∀ x ∈ last, x.2 < tm.nbTraj := by
  intro last hl x hx
  rw [backR_ok, List.getLast?_eq_getElem?] at hl
  obtain ⟨h1, h2⟩ := List.getElem?_eq_some_iff.1 hl
  subst h2
  exact (h.frame _ h1).traj x hx

theorem init_inv (n : Nat) : Inv [n] (init n) := by
  refine { len := by simp [init], pos := by simp [init], frame := ?_, used := ?_ }
  · intro t h
    simp only [init, List.length_singleton, Nat.lt_one_iff] at h
    subst h
    simp only [init, init_frame, List.getElem_cons_zero]
    refine ⟨⟨?_, ?_⟩, ?_, ?_⟩
    · simp [List.map_map, Function.comp_def, List.nodup_range]
    · simp [List.map_map, Function.comp_def, List.nodup_range]
    · simp [List.map_map, Function.comp_def]
    · intro x hx; simp at hx; obtain ⟨a, h, rfl⟩ := hx; exact h
  · intro tr htr
    refine ⟨0, by simp [init], ?_⟩
    simp only [init, init_frame, List.getElem_cons_zero]
    simpa [List.map_map, Function.comp_def, init] using htr

theorem pushBack_inv {D : Type} [LinearOrder D] {sizes tm tm'} {fol : Followers D} {n : Nat}
    (hi : Inv sizes tm) (h : tm.pushBack fol n = .ok tm') : Inv (sizes ++ [n]) tm' := by
  obtain ⟨last, pot, hl, hp, g1, g2, -, rfl⟩ := pushBack_spec h hi.last_traj
  have hnew := newFrame_ok (greedy_inj pot) g1 g2
  simp only at hnew
  have hlen := hi.len
  refine { len := by simp [hlen], pos := by simp, frame := ?_, used := ?_ }
  · intro t ht
    simp only [List.length_append, List.length_singleton] at ht
    by_cases htl : t < tm.bm.length
    · simp only [List.getElem_append_left htl, List.getElem_append_left (hlen ▸ htl)]
      exact (hi.frame t htl).mono (by omega)
    · have : t = tm.bm.length := by omega
      subst this
      simp only [List.getElem_concat_length]
      simp only [hlen, List.getElem_concat_length]
      exact hnew
  · intro tr htr
    simp only at htr ⊢
    by_cases h : tr < tm.nbTraj
    · obtain ⟨t, ht, hm⟩ := hi.used tr h
      refine ⟨t, by simp; omega, ?_⟩
      simpa only [List.getElem_append_left ht] using hm
    · refine ⟨tm.bm.length, by simp, ?_⟩
      simp only [List.getElem_concat_length]
      rw [List.map_append, zipIdx_snd, List.mem_append]
      right
      simp only [List.mem_range'_1]
      omega

theorem run_concat {D : Type} [LinearOrder D] {n : Nat} {hist : List (Followers D × Nat)} {x}
    {tm} : run n (hist ++ [x]) = .ok tm ↔ ∃ tm0, run n hist = .ok tm0 ∧ tm0.pushBack x.1 x.2 = .ok tm := by
  unfold run
  rw [foldlM_append_ok]
  constructor
  · rintro ⟨c, h1, h2⟩
    rw [List.foldlM_cons, bind_ok] at h2
    obtain ⟨d, h2, h3⟩ := h2
    simp at h3; subst h3
    exact ⟨c, h1, h2⟩
  · rintro ⟨c, h1, h2⟩
    exact ⟨c, h1, by rw [List.foldlM_cons, h2]; rfl⟩

theorem run_inv {D : Type} [LinearOrder D] {n : Nat} {hist : List (Followers D × Nat)} {tm}
    (h : run n hist = .ok tm) : Inv (n :: hist.map Prod.snd) tm := by
  induction hist using List.reverseRecOn generalizing tm with
  | nil => simp [run] at h; subst h; exact init_inv n
  | append_singleton l x ih =>
    obtain ⟨tm0, h0, h1⟩ := run_concat.1 h
    have := pushBack_inv (ih h0) h1
    simpa using this

end TrajMap
end Colloids
