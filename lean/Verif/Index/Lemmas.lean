import Verif.Index.Model
import Verif.CommonLemmas
import Mathlib.Data.List.Sort

/-! # Lemmas on the indices -/

namespace Colloids

theorem mem_listUnique {x : Nat} : ∀ {l : List Nat}, x ∈ listUnique l ↔ x ∈ l
  | [] => by simp [listUnique]
  | [a] => by simp [listUnique]
  | a :: b :: l => by
    rw [listUnique]
    split
    · rename_i h
      rw [mem_listUnique]
      subst h
      simp
    · rw [List.mem_cons, mem_listUnique, List.mem_cons (a := x) (b := a)]

theorem listUnique_sorted : ∀ {l : List Nat}, l.Pairwise (· ≤ ·) → (listUnique l).Pairwise (· < ·)
  | [], _ => by simp [listUnique]
  | [a], _ => by simp [listUnique]
  | a :: b :: l, h => by
    rw [listUnique]
    rw [List.pairwise_cons] at h
    split
    · exact listUnique_sorted h.2
    · rename_i hab
      rw [List.pairwise_cons]
      refine ⟨?_, listUnique_sorted h.2⟩
      intro c hc
      rw [mem_listUnique] at hc
      have h1 := h.1 b (by simp)
      have h2 : b ≤ c := by
        rcases List.mem_cons.1 hc with rfl | hc
        · exact le_refl _
        · exact (List.pairwise_cons.1 h.2).1 c hc
      omega

theorem mem_sortUnique {x : Nat} {l : List Nat} : x ∈ sortUnique l ↔ x ∈ l := by
  rw [sortUnique, mem_listUnique, List.mem_mergeSort]

theorem sortUnique_sorted (l : List Nat) : (sortUnique l).Pairwise (· < ·) := by
  refine listUnique_sorted ?_
  have := List.pairwise_mergeSort (le := fun a b : Nat => decide (a ≤ b))
    (by intro a b c; simp; omega) (by intro a b; simp; omega) l
  exact this.imp (by simp)

/-- Two strictly increasing lists with the same elements are equal. -/
theorem sortedLT_ext {l l' : List Nat} (h : l.Pairwise (· < ·)) (h' : l'.Pairwise (· < ·))
    (hm : ∀ x, x ∈ l ↔ x ∈ l') : l = l' := by
  refine List.Perm.eq_of_pairwise (le := (· < ·)) (fun a b _ _ h1 h2 => absurd h1 (by omega)) h h' ?_
  rw [List.perm_ext_iff_of_nodup (h.imp (fun {a b} h => by omega)) (h'.imp (fun {a b} h => by omega))]
  exact hm

namespace TreeIndex

theorem mem_setIns {i j : Nat} {l : List Nat} : j ∈ setIns i l ↔ j = i ∨ j ∈ l := by
  induction l with
  | nil => simp [setIns]
  | cons x l ih =>
    rw [setIns]
    split
    · simp
    · split
      · rename_i h; subst h; simp
      · simp only [List.mem_cons, ih]; tauto

theorem getElem?_growTo {β : Type} (n : Nat) (e : β) (l : List β) (a : Nat) :
    (growTo n e l)[a]? = if a < l.length then l[a]? else if a < n then some e else none := by
  rw [growTo, List.getElem?_append]
  split
  · rfl
  · rw [List.getElem?_replicate]
    split <;> split <;> first | rfl | omega

theorem length_growTo {β : Type} (n : Nat) (e : β) (l : List β) :
    (growTo n e l).length = max l.length n := by
  simp [growTo]; omega

/-- `i` is in `tree[a][len]`. -/
def Has (s : TreeIndex) (i a len : Nat) : Prop :=
  ∃ row set, s.tree[a]? = some row ∧ row[len]? = some set ∧ i ∈ set

theorem insert_ok (s : TreeIndex) (hs : ∀ h : s.overall = .uninit, False) (i : Nat) (iv : Nat × Nat) :
    ∃ s', s.insert i iv = .ok s' ∧ (∃ o, s'.overall = .obj o) ∧
      s'.tree.length = max s.tree.length (iv.1 + 1) ∧
      ∀ j a len, Has s' j a len ↔ Has s j a len ∨ (j = i ∧ a = iv.1 ∧ len = iv.2 - iv.1) := by
  have hov : ∃ ov, newOverall s.overall iv = .ok ov := by
    cases h : s.overall with
    | uninit => exact (hs h).elim
    | null => exact ⟨_, rfl⟩
    | obj o => exact ⟨_, rfl⟩
  obtain ⟨ov, hov⟩ := hov
  generalize hlen : iv.2 - iv.1 = L
  have l1 : (growTo (iv.1 + 1) [] s.tree).length = max s.tree.length (iv.1 + 1) := length_growTo _ _ _
  have b1 : iv.1 < (growTo (iv.1 + 1) [] s.tree).length := by omega
  obtain ⟨row0, hrow0⟩ : ∃ row0, (growTo (iv.1 + 1) [] s.tree)[iv.1]? = some row0 :=
    ⟨_, List.getElem?_eq_getElem b1⟩
  have hrow0' := hrow0
  rw [getElem?_growTo, if_pos (Nat.lt_succ_self _ : iv.1 < iv.1 + 1)] at hrow0'
  have t2 : modifyR (growTo (iv.1 + 1) [] s.tree) iv.1 (growTo (L + 1) []) =
      .ok ((growTo (iv.1 + 1) [] s.tree).modify iv.1 (growTo (L + 1) [])) :=
    modifyR_ok.2 ⟨b1, rfl⟩
  have g2 : getR ((growTo (iv.1 + 1) [] s.tree).modify iv.1 (growTo (L + 1) [])) iv.1 =
      .ok (growTo (L + 1) [] row0) := by
    rw [getR_ok, List.getElem?_modify]
    simp [hrow0]
  have b3 : L < (growTo (L + 1) [] row0).length := by rw [length_growTo]; omega
  have m3 : modifyR (growTo (L + 1) [] row0) L (setIns i) =
      .ok ((growTo (L + 1) [] row0).modify L (setIns i)) := modifyR_ok.2 ⟨b3, rfl⟩
  have s4 : setR ((growTo (iv.1 + 1) [] s.tree).modify iv.1 (growTo (L + 1) [])) iv.1
      ((growTo (L + 1) [] row0).modify L (setIns i)) =
      .ok (((growTo (iv.1 + 1) [] s.tree).modify iv.1 (growTo (L + 1) [])).set iv.1
        ((growTo (L + 1) [] row0).modify L (setIns i))) := setR_ok.2 ⟨by simpa using b1, rfl⟩
  refine ⟨⟨.obj ov, ((growTo (iv.1 + 1) [] s.tree).modify iv.1 (growTo (L + 1) [])).set iv.1
        ((growTo (L + 1) [] row0).modify L (setIns i))⟩, ?_, ⟨ov, rfl⟩, ?_, ?_⟩
  · unfold insert
    rw [hov, ok_bind]
    dsimp only
    rw [hlen, t2, ok_bind, g2, ok_bind, m3, ok_bind, s4, ok_bind]
    rfl
  · simp [l1]
  · intro j a len
    have hta : (((growTo (iv.1 + 1) [] s.tree).modify iv.1 (growTo (L + 1) [])).set iv.1
        ((growTo (L + 1) [] row0).modify L (setIns i)))[a]? =
        if iv.1 = a then some ((growTo (L + 1) [] row0).modify L (setIns i))
        else if a < s.tree.length then s.tree[a]? else if a < iv.1 + 1 then some [] else none := by
      rw [List.getElem?_set]
      split
      · rename_i h
        simp only [List.length_modify, if_pos b1]
      · rename_i h
        rw [List.getElem?_modify, getElem?_growTo]
        simp [h]
    simp only [Has]
    rw [hta]
    by_cases ha : iv.1 = a
    · subst ha
      simp only [if_true, Option.some.injEq, exists_and_left, exists_eq_left', true_and]
      have hrow : ((growTo (L + 1) [] row0).modify L (setIns i))[len]? =
          if len = L then some (setIns i ((row0[L]?).getD []))
          else if len < row0.length then row0[len]? else if len < L + 1 then some [] else none := by
        rw [List.getElem?_modify]
        by_cases hl : len = L
        · subst hl
          rw [getElem?_growTo]
          simp only [if_true, Nat.lt_succ_self]
          split
          · rename_i h; simp [h]
          · rename_i h; simp [h]
        · rw [if_neg hl, getElem?_growTo]
          have hl' : ¬ L = len := fun h => hl h.symm
          simp [hl']
      rw [hrow]
      have hold : (∃ row, s.tree[iv.1]? = some row ∧ ∃ set, row[len]? = some set ∧ j ∈ set) ↔
          ∃ set, row0[len]? = some set ∧ j ∈ set := by
        split at hrow0'
        · rw [hrow0']; simp
        · rename_i h
          simp only [Option.some.injEq] at hrow0'
          subst hrow0'
          have : s.tree[iv.1]? = none := by simpa using h
          simp [this]
      rw [hold]
      by_cases hl : len = L
      · subst hl
        simp only [if_true, Option.some.injEq, exists_eq_left', mem_setIns, and_true]
        cases hr : row0[len]? with
        | none => simp
        | some x => simp [or_comm]
      · rw [if_neg hl]
        simp only [hl, and_false, or_false]
        split
        · rfl
        · rename_i h
          have : row0[len]? = none := by simpa using h
          rw [this]
          split <;> simp
    · simp only [if_neg ha, show ¬ a = iv.1 from fun h => ha h.symm, false_and, and_false, or_false]
      split
      · rfl
      · rename_i h
        have : s.tree[a]? = none := by simpa using h
        rw [this]
        split <;> simp

/-- Insertion of a sequence of numbered intervals. -/
def insertAll (s : TreeIndex) (items : List (Nat × Nat × Nat)) : R TreeIndex :=
  items.foldlM (fun s x => s.insert x.1 x.2) s

theorem insertAll_ok : ∀ (items : List (Nat × Nat × Nat)) (s : TreeIndex), (s.overall = .uninit → False) →
    ∃ s', s.insertAll items = .ok s' ∧
      (∀ n, n < s'.tree.length ↔ n < s.tree.length ∨ ∃ x ∈ items, n ≤ x.2.1) ∧
      ∀ j a len, Has s' j a len ↔ Has s j a len ∨ ∃ x ∈ items, j = x.1 ∧ a = x.2.1 ∧ len = x.2.2 - x.2.1 := by
  intro items
  induction items with
  | nil => intro s _; exact ⟨s, rfl, by simp, by simp⟩
  | cons x items ih =>
    intro s hs
    obtain ⟨s1, h1, ⟨o, ho⟩, h3, h4⟩ := insert_ok s hs x.1 x.2
    obtain ⟨s2, k1, k2, k3⟩ := ih s1 (by rw [ho]; intro h; cases h)
    refine ⟨s2, ?_, ?_, ?_⟩
    · unfold insertAll at k1 ⊢
      rw [List.foldlM_cons, h1]
      exact k1
    · intro n
      rw [k2, h3]
      simp only [List.mem_cons, exists_eq_or_imp]
      rw [show (n < max s.tree.length (x.2.1 + 1)) ↔ (n < s.tree.length ∨ n ≤ x.2.1) by omega, or_assoc]
    · intro j a len
      rw [k3, h4]
      simp only [List.mem_cons, exists_eq_or_imp, or_assoc]

theorem mapM_ok_of {β γ : Type} (f : β → R γ) (g : β → γ) : ∀ (l : List β),
    (∀ x ∈ l, f x = .ok (g x)) → l.mapM f = .ok (l.map g) := by
  intro l
  induction l with
  | nil => intro _; rfl
  | cons x l ih =>
    intro h
    rw [List.mapM_cons, h x (by simp), ok_bind, ih (fun y hy => h y (by simp [hy])), ok_bind]
    rfl

theorem mapM_error {β γ : Type} (f : β → R γ) (e : Fault) : ∀ (l l' : List β) (x : β),
    (∀ y ∈ l, ∃ z, f y = .ok z) → f x = .error e → (l ++ x :: l').mapM f = .error e := by
  intro l
  induction l with
  | nil => intro l' x _ h; rw [List.nil_append, List.mapM_cons, h]; rfl
  | cons y l ih =>
    intro l' x h hx
    obtain ⟨z, hz⟩ := h y (by simp)
    rw [List.cons_append, List.mapM_cons, hz, ok_bind, ih l' x (fun w hw => h w (by simp [hw])) hx]
    rfl

/-- What the query computes when it stays in bounds. -/
theorem select_ok (s : TreeIndex) (iv : Nat × Nat) (h : iv.1 < s.tree.length) :
    ∃ L, s.select iv = .ok L ∧ L.Pairwise (· < ·) ∧
      ∀ j, j ∈ L ↔ ∃ a len, a ≤ iv.1 ∧ iv.2 - iv.1 ≤ len ∧ Has s j a len := by
  have hm := mapM_ok_of (fun t0 => do
      let row ← getR s.tree t0
      return (row.drop (iv.2 - iv.1)).flatten)
    (fun t0 => (((s.tree[t0]?).getD []).drop (iv.2 - iv.1)).flatten)
    (List.range (min iv.1 s.tree.length + 1)) (by
      intro t0 ht0
      rw [List.mem_range] at ht0
      have : t0 < s.tree.length := by omega
      rw [getR_of_lt this, ok_bind]
      simp [this])
  refine ⟨sortUnique (List.flatten ((List.range (min iv.1 s.tree.length + 1)).map
      (fun t0 => (((s.tree[t0]?).getD []).drop (iv.2 - iv.1)).flatten))), ?_, sortUnique_sorted _, ?_⟩
  · unfold select
    rw [hm, ok_bind]
    rfl
  · intro j
    rw [mem_sortUnique, List.mem_flatten]
    constructor
    · rintro ⟨l, hl, hj⟩
      obtain ⟨t0, ht0, rfl⟩ := List.mem_map.1 hl
      rw [List.mem_range] at ht0
      obtain ⟨set, hset, hj⟩ := List.mem_flatten.1 hj
      obtain ⟨k, hk⟩ := List.mem_iff_getElem?.1 hset
      rw [List.getElem?_drop] at hk
      have : t0 < s.tree.length := by omega
      rw [List.getElem?_eq_getElem this, Option.getD_some] at hk
      exact ⟨t0, iv.2 - iv.1 + k, by omega, by omega, s.tree[t0], set, List.getElem?_eq_getElem this, hk, hj⟩
    · rintro ⟨a, len, ha, hlen, row, set, h1, h2, h3⟩
      refine ⟨_, List.mem_map.2 ⟨a, List.mem_range.2 (by omega), rfl⟩, ?_⟩
      rw [h1, Option.getD_some, List.mem_flatten]
      refine ⟨set, ?_, h3⟩
      rw [List.mem_iff_getElem?]
      refine ⟨len - (iv.2 - iv.1), ?_⟩
      rw [List.getElem?_drop, ← h2]
      congr 1
      omega

theorem select_ub (s : TreeIndex) (iv : Nat × Nat) (h : s.tree.length ≤ iv.1) :
    s.select iv = .error .ub := by
  have hmin : min iv.1 s.tree.length + 1 = s.tree.length + 1 := by omega
  unfold select
  rw [hmin, List.range_succ]
  rw [mapM_error _ .ub (List.range s.tree.length) [] s.tree.length]
  · rfl
  · intro y hy
    rw [List.mem_range] at hy
    exact ⟨((s.tree[y]).drop (iv.2 - iv.1)).flatten, by rw [getR_of_lt hy, ok_bind]; rfl⟩
  · have : getR s.tree s.tree.length = .error .ub := by simp [getR]
    rw [this]; rfl

end TreeIndex
end Colloids
