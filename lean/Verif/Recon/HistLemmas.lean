import Verif.Recon.GrowLemmas

/-! # Helper lemmas for the reconstruction: histories and clusters -/

namespace Colloids
namespace Recon
variable {G : Type} [Field G] [LinearOrder G]

omit [LinearOrder G] in
theorem entry_eq_nil {fr : List (Center 2 G)} {row : List Nat} {tr t : Nat} (h : tr ∉ row) :
    entry fr row tr t = [] := by
  unfold entry
  rw [List.map_eq_nil_iff, List.filter_eq_nil_iff]
  rintro ⟨c, j⟩ hc
  simp only [decide_eq_true_eq]
  rintro rfl
  exact h (List.of_mem_zip hc).2

omit [LinearOrder G] in
theorem entry_eq_single {fr : List (Center 2 G)} {row : List Nat} {tr t p : Nat} {c : Center 2 G}
    (hnd : row.Nodup) (hp : row[p]? = some tr) (hc : fr[p]? = some c) :
    entry fr row tr t = [c.raise (t : G)] := by
  obtain ⟨h1, h2⟩ := List.getElem?_eq_some_iff.1 hp
  obtain ⟨h3, h4⟩ := List.getElem?_eq_some_iff.1 hc
  have er : row = row.take p ++ tr :: row.drop (p + 1) := by
    rw [← h2, List.cons_getElem_drop_succ, List.take_append_drop]
  have ef : fr = fr.take p ++ c :: fr.drop (p + 1) := by
    rw [← h4, List.cons_getElem_drop_succ, List.take_append_drop]
  have hnd' := hnd
  rw [er, List.nodup_append] at hnd'
  obtain ⟨n1, n2, n3⟩ := hnd'
  have g1 : tr ∉ row.take p := fun hm => n3 tr hm tr (by simp) rfl
  have g2 : tr ∉ row.drop (p + 1) := (List.nodup_cons.1 n2).1
  have z : fr.zip row = (fr.take p).zip (row.take p) ++ (c, tr) :: (fr.drop (p + 1)).zip (row.drop (p + 1)) := by
    conv_lhs => rw [ef, er]
    rw [List.zip_append (by simp; omega), List.zip_cons_cons]
  have e1 := entry_eq_nil (G := G) (fr := fr.take p) (t := t) g1
  have e2 := entry_eq_nil (G := G) (fr := fr.drop (p + 1)) (t := t) g2
  unfold entry at e1 e2 ⊢
  rw [z, List.filter_append, List.map_append, e1, List.filter_cons_of_pos (by simp), List.map_cons, e2]
  rfl

omit [LinearOrder G] in
/-- A cluster lists the centers of its trajectory. -/
theorem cluster_lists {acc : List (List (Center 2 G))} {ti : MIndex} (hg : ti.Good)
    (hs : ti.pos2tr.map List.length = acc.map List.length) {tr : Nat} {T : MTraj}
    (hT : ti.tr2pos[tr]? = some T) :
    (clusterOf acc ti.pos2tr tr).length = T.steps.length ∧
    ∀ (k p : Nat), T.steps[k]? = some p → ∃ fr c, acc[T.start.toNat + k]? = some fr ∧
      fr[p]? = some c ∧ (clusterOf acc ti.pos2tr tr)[k]? = some (c.raise ((T.start.toNat + k : Nat) : G)) := by
  have hT' : (ti.tr2pos.map MTraj.toTraj)[tr]? = some T.toTraj := by rw [List.getElem?_map, hT]; rfl
  have h0 := hg.start T (List.mem_of_getElem? hT)
  have hlen : acc.length = ti.pos2tr.length := by
    have := congrArg List.length hs; simpa using this.symm
  -- the position in the rows
  have hpos : ∀ (t p : Nat), (∃ row, ti.pos2tr[t]? = some row ∧ row[p]? = some tr) ↔
      T.start.toNat ≤ t ∧ T.steps[t - T.start.toNat]? = some p := by
    intro t p
    rw [← hg.pos_iff, posAt_iff hT']
    rfl
  have hc : ∀ (t p : Nat), T.start.toNat ≤ t → T.steps[t - T.start.toNat]? = some p →
      ∃ fr row c, acc[t]? = some fr ∧ ti.pos2tr[t]? = some row ∧ row[p]? = some tr ∧ fr[p]? = some c := by
    intro t p h1 h2
    obtain ⟨row, h3, h4⟩ := (hpos t p).2 ⟨h1, h2⟩
    have h5 : (acc.map List.length)[t]? = some row.length := by rw [← hs, List.getElem?_map, h3]; rfl
    rw [List.getElem?_map] at h5
    obtain ⟨fr, h6, h7⟩ := Option.map_eq_some_iff.1 h5
    have : p < fr.length := by rw [h7]; exact (List.getElem?_eq_some_iff.1 h4).1
    exact ⟨fr, row, fr[p], h6, h3, h4, List.getElem?_eq_getElem this⟩
  have hend : T.start.toNat + T.steps.length ≤ ti.pos2tr.length := by
    have hne := List.length_pos_iff.2 (hg.nonempty T (List.mem_of_getElem? hT))
    obtain ⟨fr, row, c, -, h3, -⟩ := hc (T.start.toNat + (T.steps.length - 1))
      (T.steps[T.steps.length - 1]'(by omega)) (by omega) (by
        rw [show T.start.toNat + (T.steps.length - 1) - T.start.toNat = T.steps.length - 1 by omega]
        exact List.getElem?_eq_getElem _)
    have := (List.getElem?_eq_some_iff.1 h3).1
    omega
  have key : ∀ n, n ≤ ti.pos2tr.length →
      (clusterOf (acc.take n) (ti.pos2tr.take n) tr).length = min T.steps.length (n - T.start.toNat) ∧
      ∀ (k p : Nat), T.start.toNat + k < n → T.steps[k]? = some p → ∃ fr c, acc[T.start.toNat + k]? = some fr ∧
        fr[p]? = some c ∧ (clusterOf (acc.take n) (ti.pos2tr.take n) tr)[k]? =
          some (c.raise ((T.start.toNat + k : Nat) : G)) := by
    intro n
    induction n with
    | zero => intro _; simp [clusterOf]
    | succ n ih =>
      intro hn
      obtain ⟨ih1, ih2⟩ := ih (by omega)
      have ha : n < acc.length := by omega
      rw [List.take_succ_eq_append_getElem ha, List.take_succ_eq_append_getElem (by omega),
        clusterOf_concat (by simp; omega)]
      have hl : (ti.pos2tr.take n).length = n := by simp; omega
      rw [hl]
      by_cases hin : T.start.toNat ≤ n ∧ n - T.start.toNat < T.steps.length
      · obtain ⟨fr, row, c, c1, c2, c3, c4⟩ := hc n (T.steps[n - T.start.toNat]'hin.2) hin.1
          (List.getElem?_eq_getElem _)
        have e1 : acc[n] = fr := by
          rw [List.getElem?_eq_getElem ha] at c1; injection c1
        have e2 : ti.pos2tr[n] = row := by
          rw [List.getElem?_eq_getElem (by omega)] at c2; injection c2
        rw [e1, e2, entry_eq_single (hg.nodup row (List.mem_of_getElem? c2)) c3 c4]
        constructor
        · rw [List.length_append, ih1, List.length_singleton]; omega
        · intro k p hk hkp
          by_cases hkn : T.start.toNat + k < n
          · obtain ⟨fr', c', d1, d2, d3⟩ := ih2 k p hkn hkp
            refine ⟨fr', c', d1, d2, ?_⟩
            rw [List.getElem?_append_left (List.getElem?_eq_some_iff.1 d3).1]
            exact d3
          · have hk' : T.start.toNat + k = n := by omega
            have hk2 : k = n - T.start.toNat := by omega
            have hpe : T.steps[n - T.start.toNat] = p := by
              rw [hk2, List.getElem?_eq_getElem hin.2] at hkp; injection hkp
            rw [hpe] at c4
            refine ⟨fr, c, by rw [hk']; exact c1, c4, ?_⟩
            rw [List.getElem?_append_right (by omega), hk']
            rw [ih1, show k - min T.steps.length (n - T.start.toNat) = 0 by omega]
            rfl
      · have hnot : tr ∉ ti.pos2tr[n] := by
          intro hm
          obtain ⟨p, hp⟩ := List.mem_iff_getElem?.1 hm
          have := (hpos n p).1 ⟨_, List.getElem?_eq_getElem (by omega), hp⟩
          exact hin ⟨this.1, (List.getElem?_eq_some_iff.1 this.2).1⟩
        rw [entry_eq_nil hnot, List.append_nil]
        constructor
        · rw [ih1]; omega
        · intro k p hk hkp
          have := (List.getElem?_eq_some_iff.1 hkp).1
          exact ih2 k p (by omega) hkp
  obtain ⟨k1, k2⟩ := key ti.pos2tr.length (le_refl _)
  rw [List.take_length, List.take_of_length_le (by omega)] at k1 k2
  refine ⟨by rw [k1]; omega, fun k p hkp => k2 k p ?_ hkp⟩
  have := (List.getElem?_eq_some_iff.1 hkp).1
  omega

/-- Push frames one after the other, each with its own maximum distance. -/
def run (P : RParams G) (H : Heur 2 G) (sort : List (Center 2 G) → List (Center 2 G))
    (calls : List (List (Center 2 G) × G)) : R (Recon G) :=
  calls.foldlM (fun s c => pushBack P H sort s c.1 c.2) new

variable [IsStrictOrderedRing G]

theorem run_lock {P : RParams G} {H : Heur 2 G} (hP : P.Valid) (hH : H.Valid P)
    {sort : List (Center 2 G) → List (Center 2 G)} (hs : Center.SortsByIntensity sort)
    (calls : List (List (Center 2 G) × G)) (hne : calls ≠ []) :
    ∃ acc s ti, run P H sort calls = .ok s ∧ Lock acc s ti ∧ acc.length = calls.length ∧
      ∀ (t : Nat) (call : List (Center 2 G) × G), calls[t]? = some call → ∃ fr tree, acc[t]? = some fr ∧
        Center.removeOverlapping P H sort call.1 (1 / 2) = .ok (fr, tree) := by
  induction calls using List.reverseRecOn with
  | nil => exact absurd rfl hne
  | append_singleton calls call ih =>
    by_cases hc : calls = []
    · subst hc
      obtain ⟨fr, tree, r1, -⟩ := Center.C31_tree hP hH hs call.1 (1 / 2)
      refine ⟨[fr], _, _, ?_, lock_first fr, rfl, ?_⟩
      · unfold run
        rw [List.nil_append, List.foldlM_cons, pushBack, r1, ok_bind]
        rfl
      · intro t c htc
        cases t with
        | zero => simp at htc; subst htc; exact ⟨fr, tree, rfl, r1⟩
        | succ t => simp at htc
    · obtain ⟨acc, s, ti, i1, i2, i3, i4⟩ := ih hc
      obtain ⟨fr, tree, s', ti', r1, r2, r3, -⟩ := lock_push hP hH hs i2 call.1 call.2
      refine ⟨acc ++ [fr], s', ti', ?_, r3, by simp [i3], ?_⟩
      · unfold run at i1 ⊢
        rw [List.foldlM_append, i1, ok_bind, List.foldlM_cons, r2, ok_bind]
        rfl
      · intro t c htc
        by_cases ht : t < calls.length
        · rw [List.getElem?_append_left ht] at htc
          obtain ⟨f, tr, a, b⟩ := i4 t c htc
          exact ⟨f, tr, by rw [List.getElem?_append_left (by omega)]; exact a, b⟩
        · have ht' := (List.getElem?_eq_some_iff.1 htc).1
          rw [List.length_append, List.length_singleton] at ht'
          have ht2 : t = calls.length := by omega
          subst ht2
          rw [List.getElem?_append_right (le_refl _), Nat.sub_self] at htc
          simp at htc
          subst htc
          refine ⟨fr, tree, ?_, r1⟩
          rw [← i3, List.getElem?_append_right (le_refl _), Nat.sub_self]
          rfl

/-! ## Splitting -/

omit [IsStrictOrderedRing G] in
theorem gradient_ok {cl : List (Center 3 G)} (h : 3 ≤ cl.length) :
    gradient cl = .ok (List.replicate (cl.length - 2)
      (sqDist2 (d := 1) (cl[0]'(by omega)) (cl[2]'(by omega)))) := by
  unfold gradient
  have : ∀ l : List Nat, l.mapM (fun _ => do
      let p ← getR cl 0
      let q ← getR cl 2
      pure (sqDist2 p q)) = (.ok (List.replicate l.length
        (sqDist2 (d := 1) (cl[0]'(by omega)) (cl[2]'(by omega)))) : R (List G)) := by
    intro l
    induction l with
    | nil => rfl
    | cons a l ih =>
      rw [List.mapM_cons, ih, getR_of_lt (show 0 < cl.length by omega), ok_bind,
        getR_of_lt (show 2 < cl.length by omega), ok_bind, pure_eq_ok, ok_bind, ok_bind]
      rfl
  rw [this, List.length_range]


omit [IsStrictOrderedRing G] in
/-- The positions of the local maxima. -/
theorem maxima_ok (grad : List G) :
    ∃ l, maxima grad = .ok l ∧ l.Pairwise (· < ·) ∧ (∀ x, x ∈ l ↔ ∃ i a b c, x = i + 2 ∧
      grad[i]? = some a ∧ grad[i + 1]? = some b ∧ grad[i + 2]? = some c ∧ a ≤ b ∧ c ≤ b ∧ 1 < b) := by
  unfold maxima
  have key : ∀ n, n ≤ grad.length - 2 → ∃ l, (List.range n).foldlM (fun acc i => do
      let a ← getR grad i
      let b ← getR grad (i + 1)
      let c ← getR grad (i + 2)
      pure (if a ≤ b ∧ c ≤ b ∧ 1 < b then acc ++ [i + 2] else acc)) [] = (.ok l : R (List Nat)) ∧
      l.Pairwise (· < ·) ∧ (∀ x, x ∈ l ↔ ∃ i a b c, i < n ∧ x = i + 2 ∧
      grad[i]? = some a ∧ grad[i + 1]? = some b ∧ grad[i + 2]? = some c ∧ a ≤ b ∧ c ≤ b ∧ 1 < b) := by
    intro n
    induction n with
    | zero => intro _; exact ⟨[], rfl, List.Pairwise.nil, by simp⟩
    | succ n ih =>
      intro hn
      obtain ⟨l, h1, h2, h3⟩ := ih (by omega)
      rw [List.range_succ, List.foldlM_append, h1, ok_bind, List.foldlM_cons,
        getR_of_lt (show n < grad.length by omega), ok_bind,
        getR_of_lt (show n + 1 < grad.length by omega), ok_bind,
        getR_of_lt (show n + 2 < grad.length by omega), ok_bind, pure_eq_ok, ok_bind, List.foldlM_nil,
        pure_eq_ok]
      refine ⟨_, rfl, ?_, ?_⟩
      · split
        · rw [List.pairwise_append]
          refine ⟨h2, by simp, ?_⟩
          intro x hx y hy
          obtain ⟨i, -, -, -, hi, rfl, -⟩ := (h3 x).1 hx
          simp at hy
          omega
        · exact h2
      · intro x
        have hiff : (x ∈ if grad[n] ≤ grad[n + 1] ∧ grad[n + 2] ≤ grad[n + 1] ∧ 1 < grad[n + 1] then
            l ++ [n + 2] else l) ↔ x ∈ l ∨ (x = n + 2 ∧ grad[n] ≤ grad[n + 1] ∧
              grad[n + 2] ≤ grad[n + 1] ∧ 1 < grad[n + 1]) := by
          split
          · rename_i hc; simp [hc]
          · rename_i hc; simp [hc]
        rw [hiff, h3]
        constructor
        · rintro (⟨i, a, b, c, hi, r⟩ | ⟨hx, r⟩)
          · exact ⟨i, a, b, c, by omega, r⟩
          · exact ⟨n, _, _, _, by omega, hx, List.getElem?_eq_getElem (by omega),
              List.getElem?_eq_getElem (by omega), List.getElem?_eq_getElem (by omega), r⟩
        · rintro ⟨i, a, b, c, hi, hx, ha, hb, hc, r⟩
          by_cases hin : i < n
          · exact Or.inl ⟨i, a, b, c, hin, hx, ha, hb, hc, r⟩
          · have : i = n := by omega
            subst this
            obtain ⟨_, ha⟩ := List.getElem?_eq_some_iff.1 ha
            obtain ⟨_, hb⟩ := List.getElem?_eq_some_iff.1 hb
            obtain ⟨_, hc⟩ := List.getElem?_eq_some_iff.1 hc
            subst ha hb hc
            exact Or.inr ⟨hx, r⟩
  obtain ⟨l, h1, h2, h3⟩ := key _ (le_refl _)
  refine ⟨l, h1, h2, fun x => (h3 x).trans ⟨?_, ?_⟩⟩
  · rintro ⟨i, a, b, c, -, r⟩; exact ⟨i, a, b, c, r⟩
  · rintro ⟨i, a, b, c, hx, ha, hb, hc, r⟩
    exact ⟨i, a, b, c, by have := (List.getElem?_eq_some_iff.1 hc).1; omega, hx, ha, hb, hc, r⟩

/-- Cut a list at decreasing positions: what remains, and the pieces, last first. -/
def cutPieces {α : Type} (c : List α) : List Nat → List α × List (List α)
  | [] => (c, [])
  | r :: rs => ((cutPieces (c.take r) rs).1, c.drop r :: (cutPieces (c.take r) rs).2)

theorem cutPieces_join {α : Type} : ∀ (rs : List Nat) (c : List α),
    (cutPieces c rs).1 ++ (cutPieces c rs).2.reverse.flatten = c := by
  intro rs
  induction rs with
  | nil => intro c; simp [cutPieces]
  | cons r rs ih =>
    intro c
    simp only [cutPieces, List.reverse_cons, List.flatten_append, List.flatten_cons, List.flatten_nil,
      List.append_nil]
    rw [← List.append_assoc, ih, List.take_append_drop]

theorem cutPieces_ne {α : Type} : ∀ (rs : List Nat) (c : List α),
    rs.Pairwise (· > ·) → (∀ r ∈ rs, 0 < r ∧ r < c.length) →
    (∀ x ∈ (cutPieces c rs).2, x ≠ []) ∧ (c ≠ [] → (cutPieces c rs).1 ≠ []) := by
  intro rs
  induction rs with
  | nil => intro c _ _; simp [cutPieces]
  | cons r rs ih =>
    intro c hp hr
    have h0 := hr r (by simp)
    rw [List.pairwise_cons] at hp
    obtain ⟨i1, i2⟩ := ih (c.take r) hp.2 (by
      intro x hx
      have := hp.1 x hx
      have := hr x (by simp [hx])
      simp
      omega)
    constructor
    · intro x hx
      simp only [cutPieces, List.mem_cons] at hx
      rcases hx with rfl | hx
      · rw [ne_eq, List.drop_eq_nil_iff]; omega
      · exact i1 x hx
    · intro _
      simp only [cutPieces]
      apply i2
      rw [ne_eq, List.take_eq_nil_iff]
      rintro (h | h)
      · omega
      · subst h; simp at h0

omit [Field G] [LinearOrder G] [IsStrictOrderedRing G] in
theorem cutAt_all (cl : Nat) : ∀ (rs : List Nat) (cls : List (List (Center 3 G))) (c : List (Center 3 G)),
    cls[cl]? = some c → rs.Pairwise (· > ·) → (∀ r ∈ rs, r ≤ c.length) →
    rs.foldlM (cutAt cl) cls = .ok (cls.set cl (cutPieces c rs).1 ++ (cutPieces c rs).2) := by
  intro rs
  induction rs with
  | nil =>
    intro cls c h _ _
    simp only [List.foldlM_nil, cutPieces, List.append_nil, pure_eq_ok]
    obtain ⟨h1, h2⟩ := List.getElem?_eq_some_iff.1 h
    rw [← h2, List.set_getElem_self]
  | cons r rs ih =>
    intro cls c h hp hr
    have hl := (List.getElem?_eq_some_iff.1 h).1
    rw [List.pairwise_cons] at hp
    rw [List.foldlM_cons]
    have e : cutAt cl cls r = .ok (cls.set cl (c.take r) ++ [c.drop r]) := by
      unfold cutAt
      rw [getR_ok.2 h, ok_bind, if_pos (hr r (by simp))]
      rfl
    rw [e, ok_bind, ih _ (c.take r) (by
        rw [List.getElem?_append_left (by simpa using hl), List.getElem?_set_self hl]) hp.2 (by
        intro x hx
        have := hp.1 x hx
        have := hr r (by simp)
        simp; omega)]
    congr 1
    simp only [cutPieces]
    rw [List.set_append_left _ _ (by simpa using hl), List.set_set, List.append_assoc]
    rfl

/-- The cuts made in a cluster, from the end to the beginning. -/
def cutsOf (c : List (Center 3 G)) : List Nat :=
  if c.length < 3 then [] else
    match gradient c with
    | .ok g => match maxima g with
      | .ok l => l.reverse
      | .error _ => []
    | .error _ => []

omit [IsStrictOrderedRing G] in
theorem cutsOf_facts (c : List (Center 3 G)) : (cutsOf c).Pairwise (· > ·) ∧
    ∀ r, r ∈ cutsOf c ↔ 2 ≤ r ∧ r + 3 ≤ c.length ∧ ∃ a b, c[0]? = some a ∧ c[2]? = some b ∧
      1 < sqDist2 (d := 1) a b := by
  unfold cutsOf
  by_cases h : c.length < 3
  · rw [if_pos h]
    refine ⟨List.Pairwise.nil, fun r => ⟨fun hr => (by cases hr), ?_⟩⟩
    rintro ⟨-, h1, -⟩
    omega
  · rw [if_neg h, gradient_ok (by omega)]
    dsimp only
    obtain ⟨l, h1, h2, h3⟩ := maxima_ok (List.replicate (c.length - 2)
      (sqDist2 (d := 1) (c[0]'(by omega)) (c[2]'(by omega))))
    rw [h1]
    dsimp only
    rw [List.pairwise_reverse]
    refine ⟨h2, fun r => ?_⟩
    rw [List.mem_reverse, h3]
    constructor
    · rintro ⟨i, a, b, d, rfl, g1, g2, g3, g4, g5, g6⟩
      rw [List.getElem?_replicate] at g2 g3
      split at g3
      · rename_i hlt
        rw [if_pos (by omega)] at g2
        injection g2 with g2
        subst g2
        exact ⟨by omega, by omega, _, _, List.getElem?_eq_getElem (by omega),
          List.getElem?_eq_getElem (by omega), g6⟩
      · cases g3
    · rintro ⟨r1, r2, a, b, ha, hb, hab⟩
      obtain ⟨_, ha⟩ := List.getElem?_eq_some_iff.1 ha
      obtain ⟨_, hb⟩ := List.getElem?_eq_some_iff.1 hb
      subst ha hb
      have rep : ∀ j, j < c.length - 2 → (List.replicate (c.length - 2)
          (sqDist2 (d := 1) (c[0]'(by omega)) (c[2]'(by omega))))[j]? =
          some (sqDist2 (d := 1) (c[0]'(by omega)) (c[2]'(by omega))) := by
        intro j hj; rw [List.getElem?_replicate, if_pos hj]
      exact ⟨r - 2, _, _, _, by omega, rep _ (by omega), rep _ (by omega), rep _ (by omega), le_refl _,
        le_refl _, hab⟩

omit [IsStrictOrderedRing G] in
theorem splitOne_ok {cls : List (List (Center 3 G))} {cl : Nat} {c : List (Center 3 G)}
    (h : cls[cl]? = some c) :
    splitOne cls cl = .ok (cls.set cl (cutPieces c (cutsOf c)).1 ++ (cutPieces c (cutsOf c)).2) := by
  have hc := cutAt_all cl (cutsOf c) cls c h (cutsOf_facts c).1 (fun r hr => by
    have := ((cutsOf_facts c).2 r).1 hr; omega)
  unfold splitOne
  rw [getR_ok.2 h, ok_bind]
  by_cases h3 : c.length < 3
  · rw [if_pos h3]
    have : cutsOf c = [] := by unfold cutsOf; rw [if_pos h3]
    rw [this] at hc ⊢
    rw [← hc]; rfl
  · rw [if_neg h3, gradient_ok (by omega), ok_bind]
    obtain ⟨l, h1, -⟩ := maxima_ok (List.replicate (c.length - 2)
      (sqDist2 (d := 1) (c[0]'(by omega)) (c[2]'(by omega))))
    rw [h1, ok_bind]
    have : cutsOf c = l.reverse := by
      unfold cutsOf
      rw [if_neg h3, gradient_ok (by omega)]
      dsimp only
      rw [h1]
    rw [← this]; exact hc

omit [IsStrictOrderedRing G] in
theorem splitClusters_ok (cls : List (List (Center 3 G))) :
    splitClusters cls = .ok (cls.map (fun c => (cutPieces c (cutsOf c)).1) ++
      (cls.map (fun c => (cutPieces c (cutsOf c)).2)).flatten) := by
  unfold splitClusters
  have key : ∀ n, n ≤ cls.length → (List.range n).foldlM splitOne cls =
      .ok ((cls.take n).map (fun c => (cutPieces c (cutsOf c)).1) ++ cls.drop n ++
        ((cls.take n).map (fun c => (cutPieces c (cutsOf c)).2)).flatten) := by
    intro n
    induction n with
    | zero => intro _; simp
    | succ n ih =>
      intro hn
      have hl : n < cls.length := by omega
      have hlen : ((cls.take n).map (fun c => (cutPieces c (cutsOf c)).1)).length = n := by
        simp; omega
      rw [List.range_succ, List.foldlM_append, ih (by omega), ok_bind, List.foldlM_cons,
        splitOne_ok (c := cls[n]) (by
          rw [List.append_assoc, List.getElem?_append_right (by omega), hlen, Nat.sub_self,
            List.getElem?_append_left (by simp; omega)]
          simp [hl]), ok_bind, List.foldlM_nil, pure_eq_ok]
      congr 1
      rw [List.take_succ_eq_append_getElem hl, List.map_append, List.map_append, List.flatten_append,
        List.append_assoc _ (cls.drop n), List.set_append_right _ _ (by omega), hlen, Nat.sub_self,
        ← List.cons_getElem_drop_succ (h := hl)]
      simp only [List.map_cons, List.map_nil, List.flatten_cons, List.flatten_nil, List.append_nil,
        List.cons_append, List.set_cons_zero, List.append_assoc, List.nil_append]
  have := key _ (le_refl _)
  rw [List.take_length, List.drop_length, List.append_nil] at this
  exact this

omit [LinearOrder G] [IsStrictOrderedRing G] [Field G] in
theorem cutPieces_cuts {α : Type} : ∀ (rs : List Nat) (c : List α), rs.Pairwise (· > ·) →
    (∀ r ∈ rs, r ≤ c.length) → ∀ x, (∃ k, k < (cutPieces c rs).2.length ∧
      x = ((cutPieces c rs).1 ++ ((cutPieces c rs).2.reverse.take k).flatten).length) ↔ x ∈ rs := by
  intro rs
  induction rs with
  | nil => intro c _ _ x; simp [cutPieces]
  | cons r rs ih =>
    intro c hp hr x
    have hr0 := hr r (by simp)
    rw [List.pairwise_cons] at hp
    have ih' := ih (c.take r) hp.2 (by
      intro y hy
      have := hp.1 y hy
      simp; omega) x
    have hj := cutPieces_join rs (c.take r)
    rw [List.mem_cons, ← ih']
    simp only [cutPieces, List.reverse_cons, List.length_cons]
    generalize (cutPieces (c.take r) rs) = q at ih' hj ⊢
    constructor
    · rintro ⟨k, hk, rfl⟩
      by_cases hkl : k < q.2.length
      · right
        refine ⟨k, hkl, ?_⟩
        rw [List.take_append_of_le_length (by simp; omega)]
      · left
        have : k = q.2.length := by omega
        rw [this, List.take_append_of_le_length (by simp), List.take_of_length_le (by simp), hj]
        simp; omega
    · rintro (rfl | ⟨k, hk, rfl⟩)
      · refine ⟨q.2.length, by omega, ?_⟩
        rw [List.take_append_of_le_length (by simp), List.take_of_length_le (by simp), hj]
        simp; omega
      · refine ⟨k, by omega, ?_⟩
        rw [List.take_append_of_le_length (by simp; omega)]

theorem close_overlaps {x y : Center 2 G} {m tol : G} (hm : 0 ≤ m) (hr : 0 ≤ y.r * tol)
    (hxy : sqDist2 (d := 0) x y < m * m) : (x.getBBMargin m).overlaps (y.getBB tol) = true := by
  rw [Box.overlaps_iff]
  have hlt : ∀ i : Fin 2, |x.coords i - y.coords i| < m := by
    have h2 : ∀ i : Fin 2, (x.coords i - y.coords i) ^ 2 < m ^ 2 := by
      intro i
      unfold sqDist2 at hxy
      have s0 := sq_nonneg (x.coords 0 - y.coords 0)
      have s1 := sq_nonneg (x.coords 1 - y.coords 1)
      match i with
      | 0 => nlinarith
      | 1 => nlinarith
    intro i
    exact abs_lt_of_sq_lt_sq (h2 i) hm
  intro i
  have := abs_lt.1 (hlt i)
  show x.coords i - m < y.coords i + y.r * tol ∧ y.coords i - y.r * tol < x.coords i + m
  constructor <;> linarith

end Recon
end Colloids
