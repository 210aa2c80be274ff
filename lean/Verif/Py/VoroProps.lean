import Mathlib.Tactic.Linarith
import Verif.CommonLemmas
import Verif.Index.Lemmas
import Verif.Py.VoroModel
import Verif.Py.MicroLogProps

/-!
# Bonds and volumes of `python/colloids/voro.py`
-/

namespace Colloids
namespace Py
namespace Voro

theorem lexLE_iff (a b : Int × Int) : lexLE a b = true ↔ a.1 < b.1 ∨ (a.1 = b.1 ∧ a.2 ≤ b.2) := by
  simp [lexLE]

/-- **C202** The bonds loaded from the cells of different particles, with different neighbours: each couple of particles `p < q` such that `q` is
a neighbour in the cell of `p`, once, in lexicographic order; and the particles that touch a wall, in order. -/
theorem C202_bonds {uniq : List Int → List Int} (hu : Micro.Uniques uniq) (cells : List Cell) (hne : cells ≠ [])
    (hs : ∀ c ∈ cells, c.s = c.ngb.length) (hid : (cells.map Cell.id).Nodup) (hnd : ∀ c ∈ cells, c.ngb.Nodup) :
    ∃ bonds outside, loadVorobonds uniq cells = .ok (bonds, outside) ∧
      bonds.Pairwise (fun a b => a.1 < b.1 ∨ (a.1 = b.1 ∧ a.2 < b.2)) ∧
      (∀ p q, (p, q) ∈ bonds ↔ p < q ∧ ∃ c ∈ cells, (c.id : Int) = p ∧ q ∈ c.ngb) ∧
      outside.Pairwise (· < ·) ∧ ∀ p : Int, p ∈ outside ↔ ∃ c ∈ cells, (c.id : Int) = p ∧ ∃ w ∈ c.ngb, w < 0 := by
  have hm : cells.mapM cellBonds = .ok (cells.map fun c => c.ngb.map fun n => ((c.id : Int), n)) :=
    TreeIndex.mapM_ok_of _ _ _ fun c hc => by
      unfold cellBonds
      rw [if_pos (hs c hc)]
  unfold loadVorobonds
  rw [if_neg hne, hm, ok_bind]
  dsimp only
  obtain ⟨all, hall⟩ : ∃ all, all = (cells.map fun c => c.ngb.map fun n => ((c.id : Int), n)).flatten := ⟨_, rfl⟩
  rw [← hall]
  have mem : ∀ p q, (p, q) ∈ all ↔ ∃ c ∈ cells, (c.id : Int) = p ∧ q ∈ c.ngb := by
    intro p q
    rw [hall, List.mem_flatten]
    constructor
    · rintro ⟨l, hl, h⟩
      obtain ⟨c, hc, rfl⟩ := List.mem_map.1 hl
      obtain ⟨n, hn, e⟩ := List.mem_map.1 h
      obtain ⟨e1, e2⟩ := Prod.mk.injEq _ _ _ _ ▸ e
      exact ⟨c, hc, e1, e2 ▸ hn⟩
    · rintro ⟨c, hc, e, h⟩
      exact ⟨_, List.mem_map.2 ⟨c, hc, rfl⟩, List.mem_map.2 ⟨q, h, by rw [e]⟩⟩
  have nd : all.Nodup := by
    rw [hall]
    refine List.nodup_flatten.2 ⟨?_, ?_⟩
    · intro l hl
      obtain ⟨c, hc, rfl⟩ := List.mem_map.1 hl
      exact (hnd c hc).map (fun a b e => (Prod.mk.injEq _ _ _ _ ▸ e).2)
    · rw [List.pairwise_map]
      have := List.pairwise_map.1 hid
      refine this.imp ?_
      intro a b hab x hx hx'
      obtain ⟨n, -, rfl⟩ := List.mem_map.1 hx
      obtain ⟨n', -, e⟩ := List.mem_map.1 hx'
      have := (Prod.mk.injEq _ _ _ _ ▸ e).1
      exact hab (by exact_mod_cast this.symm)
  refine ⟨_, _, rfl, ?_, ?_, hu.lt _, ?_⟩
  · have hp : ((all.filter fun b => decide (0 < b.2 - b.1) && !decide (min b.1 b.2 < 0)).mergeSort lexLE).Pairwise
        (fun a b => lexLE a b = true) := by
      refine List.pairwise_mergeSort ?_ ?_ _
      · intro a b c h1 h2
        rw [lexLE_iff] at *
        omega
      · intro a b
        rw [Bool.or_eq_true, lexLE_iff, lexLE_iff]
        omega
    have hn : ((all.filter fun b => decide (0 < b.2 - b.1) && !decide (min b.1 b.2 < 0)).mergeSort lexLE).Nodup :=
      (List.mergeSort_perm _ _).nodup_iff.2 (nd.filter _)
    refine (hp.and hn).imp ?_
    rintro a b ⟨h1, h2⟩
    rw [lexLE_iff] at h1
    rcases h1 with h1 | ⟨h1, h3⟩
    · exact Or.inl h1
    · refine Or.inr ⟨h1, lt_of_le_of_ne h3 fun e => h2 (Prod.ext h1 e)⟩
  · intro p q
    rw [List.mem_mergeSort, List.mem_filter, mem]
    constructor
    · rintro ⟨h, h'⟩
      have : 0 < q - p := by
        have := (Bool.and_eq_true _ _ ▸ h').1
        exact of_decide_eq_true this
      exact ⟨by omega, h⟩
    · rintro ⟨h, c, hc, e, hq⟩
      refine ⟨⟨c, hc, e, hq⟩, ?_⟩
      have h0 : 0 ≤ p := by omega
      simp only [Bool.and_eq_true, decide_eq_true_iff, Bool.not_eq_true', decide_eq_false_iff_not]
      omega
  · intro p
    rw [hu.mem, List.mem_map]
    constructor
    · rintro ⟨⟨a, b⟩, h, rfl⟩
      obtain ⟨h1, h2⟩ := List.mem_filter.1 h
      obtain ⟨c, hc, e, hb⟩ := (mem a b).1 h1
      have := of_decide_eq_true h2
      dsimp only at this ⊢
      exact ⟨c, hc, by omega, b, hb, by omega⟩
    · rintro ⟨c, hc, e, w, hw, hw0⟩
      refine ⟨(p, w), List.mem_filter.2 ⟨(mem p w).2 ⟨c, hc, e, hw⟩, decide_eq_true ?_⟩, ?_⟩
      · dsimp only
        omega
      · dsimp only
        omega

/-- **C202** A cell with another number of neighbours than announced is an error, and so is an empty file. -/
theorem C202_refused (uniq : List Int → List Int) (cells : List Cell) (h : cells = [] ∨ ∃ c ∈ cells, c.s ≠ c.ngb.length) :
    loadVorobonds uniq cells = .error .invalidArgument := by
  unfold loadVorobonds
  rcases h with h | h
  · rw [if_pos h]
  · have hne : cells ≠ [] := by
      obtain ⟨c, hc, -⟩ := h
      exact List.ne_nil_of_mem hc
    rw [if_neg hne]
    have : cells.mapM cellBonds = .error .invalidArgument := by
      clear hne
      induction cells with
      | nil => obtain ⟨c, hc, -⟩ := h; cases hc
      | cons c l ih =>
        rw [List.mapM_cons]
        by_cases hc : c.s = c.ngb.length
        · have : cellBonds c = .ok (c.ngb.map fun n => ((c.id : Int), n)) := by unfold cellBonds; rw [if_pos hc]
          rw [this, ok_bind, ih, error_bind]
          obtain ⟨d, hd, hd'⟩ := h
          rcases List.mem_cons.1 hd with rfl | hd
          · exact absurd hc hd'
          · exact ⟨d, hd, hd'⟩
        · have : cellBonds c = .error .invalidArgument := by unfold cellBonds; rw [if_neg hc]
          rw [this, error_bind]
    rw [this, error_bind]

theorem foldl_max_spec : ∀ (l : List Nat) (a : Nat), a ≤ l.foldl max a ∧ (∀ x ∈ l, x ≤ l.foldl max a) ∧
    (l.foldl max a = a ∨ l.foldl max a ∈ l) := by
  intro l
  induction l with
  | nil => intro a; simp
  | cons x l ih =>
    intro a
    obtain ⟨h1, h2, h3⟩ := ih (max a x)
    rw [List.foldl_cons]
    refine ⟨by omega, ?_, ?_⟩
    · intro y hy
      rcases List.mem_cons.1 hy with rfl | hy
      · omega
      · exact h2 y hy
    · rcases h3 with h3 | h3
      · rcases le_total x a with h | h
        · left
          rw [h3]
          omega
        · right
          rw [h3, max_eq_right h]
          exact List.mem_cons_self
      · exact Or.inr (List.mem_cons_of_mem _ h3)

theorem addBond_mem (ngb : List (List Nat)) (b : Nat × Nat) (p x : Nat) (h1 : b.1 < ngb.length) (h2 : b.2 < ngb.length) :
    x ∈ (addBond ngb b).getD p [] ↔ x ∈ ngb.getD p [] ∨ b = (p, x) ∨ b = (x, p) := by
  obtain ⟨u, v⟩ := b
  unfold addBond
  simp only [List.getD_eq_getElem?_getD, List.getElem?_modify]
  dsimp only at h1 h2
  by_cases hp : p < ngb.length
  · rw [List.getElem?_eq_getElem hp]
    by_cases e1 : u = p <;> by_cases e2 : v = p
    · subst e1; subst e2
      simp [eq_comm]
    · subst e1
      have e3 : ¬ (u = x ∧ v = u) := fun h => e2 h.2
      simp [e2, e3, eq_comm (a := v)]
    · subst e2
      simp [e1, eq_comm]
    · simp [e1, e2]
  · have e1 : u ≠ p := by omega
    have e2 : v ≠ p := by omega
    rw [List.getElem?_eq_none (by omega)]
    simp [e1, e2]

theorem bonds_mem (N : Nat) : ∀ (bonds : List (Nat × Nat)) (ngb : List (List Nat)), ngb.length = N →
    (∀ b ∈ bonds, b.1 < N ∧ b.2 < N) → ∀ p x, x ∈ (bonds.foldl addBond ngb).getD p [] ↔
      x ∈ ngb.getD p [] ∨ (p, x) ∈ bonds ∨ (x, p) ∈ bonds := by
  intro bonds
  induction bonds with
  | nil => intro ngb _ _ p x; simp
  | cons b bonds ih =>
    intro ngb hl hb p x
    have hb0 := hb b (by simp)
    rw [List.foldl_cons, ih _ (by simp [addBond, hl]) (fun c hc => hb c (List.mem_cons_of_mem _ hc)),
      addBond_mem ngb b p x (by omega) (by omega)]
    simp only [List.mem_cons]
    constructor
    · rintro ((h | h | h) | h | h)
      · exact Or.inl h
      · exact Or.inr (Or.inl (Or.inl h.symm))
      · exact Or.inr (Or.inr (Or.inl h.symm))
      · exact Or.inr (Or.inl (Or.inr h))
      · exact Or.inr (Or.inr (Or.inr h))
    · rintro (h | (h | h) | (h | h))
      · exact Or.inl (Or.inl h)
      · exact Or.inl (Or.inr (Or.inl h.symm))
      · exact Or.inr (Or.inl h)
      · exact Or.inl (Or.inr (Or.inr h.symm))
      · exact Or.inr (Or.inr h)

/-- **C202** The second layer: particles of the network that touch a wall or are bonded to one that does, in order, if all the particles that
touch a wall are not after the last bonded one. -/
theorem C202_second (bonds : List (Nat × Nat)) (outside : List Nat) (hne : bonds ≠ [])
    (ho : ∀ o ∈ outside, ∃ b ∈ bonds, o ≤ max b.1 b.2) :
    ∃ out, secondOutside bonds outside = .ok out ∧ out.Pairwise (· < ·) ∧
      ∀ p, p ∈ out ↔ p ∈ outside ∨ ∃ q ∈ outside, (p, q) ∈ bonds ∨ (q, p) ∈ bonds := by
  obtain ⟨g1, g2, g3⟩ := foldl_max_spec (bonds.map fun b => max b.1 b.2) 0
  have hb : ∀ b ∈ bonds, b.1 < (bonds.map fun b => max b.1 b.2).foldl max 0 + 1 ∧
      b.2 < (bonds.map fun b => max b.1 b.2).foldl max 0 + 1 := by
    intro b hb
    have := g2 _ (List.mem_map.2 ⟨b, hb, rfl⟩)
    omega
  have hoN : ∀ o ∈ outside, o < (bonds.map fun b => max b.1 b.2).foldl max 0 + 1 := by
    intro o h
    obtain ⟨b, hb', hle⟩ := ho o h
    have := hb b hb'
    omega
  have e : secondOutside bonds outside =
      (let N := (bonds.map fun b => max b.1 b.2).foldl max 0 + 1
       if outside.any fun o => decide (N ≤ o) then .error .outOfRange
       else
        let out1 := fun (p : Nat) => outside.contains p
        let ngb := bonds.foldl addBond (List.replicate N [])
        .ok ((List.range N).filter fun p => out1 p || (ngb.getD p []).any out1)) := by
    cases bonds with
    | nil => exact absurd rfl hne
    | cons b l => rfl
  rw [e]
  dsimp only
  generalize hN : (bonds.map fun b => max b.1 b.2).foldl max 0 + 1 = N at hb hoN
  have hany : ¬ (outside.any fun o => decide (N ≤ o)) = true := by
    rw [List.any_eq_true]
    rintro ⟨o, h, h'⟩
    have := hoN o h
    have := of_decide_eq_true h'
    omega
  rw [if_neg hany]
  refine ⟨_, rfl, List.pairwise_lt_range.filter _, ?_⟩
  intro p
  rw [List.mem_filter, List.mem_range]
  have hng := bonds_mem N bonds (List.replicate N []) (by simp) hb p
  have hempty : ∀ x, ¬ x ∈ (List.replicate N ([] : List Nat)).getD p [] := by
    intro x hx
    rw [List.getD_eq_getElem?_getD, List.getElem?_replicate] at hx
    split at hx <;> simp at hx
  simp only [Bool.or_eq_true, List.contains_iff_mem, List.any_eq_true]
  constructor
  · rintro ⟨-, h | ⟨x, hx, hx'⟩⟩
    · exact Or.inl h
    · rcases (hng x).1 hx with h | h
      · exact absurd h (hempty x)
      · exact Or.inr ⟨x, hx', h⟩
  · rintro (h | ⟨q, hq, h⟩)
    · exact ⟨hoN p h, Or.inl h⟩
    · refine ⟨?_, Or.inr ⟨q, (hng q).2 (Or.inr h), hq⟩⟩
      rcases h with h | h
      · exact (hb _ h).1
      · exact (hb _ h).2

/-- **C202** Counterexample: a particle that touches a wall and comes after all the bonded ones is an `IndexError`. -/
theorem C202_outside_counterexample (bonds : List (Nat × Nat)) (outside : List Nat) (hne : bonds ≠ []) (o : Nat)
    (ho : o ∈ outside) (hb : ∀ b ∈ bonds, b.1 < o ∧ b.2 < o) : secondOutside bonds outside = .error .outOfRange := by
  obtain ⟨g1, g2, g3⟩ := foldl_max_spec (bonds.map fun b => max b.1 b.2) 0
  have hlt : (bonds.map fun b => max b.1 b.2).foldl max 0 + 1 ≤ o := by
    rcases g3 with h | h
    · obtain ⟨b, l, rfl⟩ := List.exists_cons_of_ne_nil hne
      have := hb b (by simp)
      omega
    · obtain ⟨b, hb', e⟩ := List.mem_map.1 h
      have := hb b hb'
      omega
  have hany : (outside.any fun o => decide ((bonds.map fun b => max b.1 b.2).foldl max 0 + 1 ≤ o)) = true :=
    List.any_eq_true.2 ⟨o, ho, decide_eq_true hlt⟩
  cases bonds with
  | nil => exact absurd rfl hne
  | cons b l =>
    unfold secondOutside
    dsimp only
    rw [if_pos hany]

/-! ### Volumes -/

section Vol

variable {F : Type} [Field F] [LinearOrder F]

theorem addTo_spec (st : List (F × Nat)) (v : F) (i : Nat) (hi : i < st.length) :
    ∃ st', addTo st v i = .ok st' ∧ st'.length = st.length ∧ ∀ p, st'.getD p (0, 0) =
      if p = i then ((st.getD p (0, 0)).1 + v, (st.getD p (0, 0)).2 + 1) else st.getD p (0, 0) := by
  unfold addTo
  rw [List.getElem?_eq_getElem hi]
  refine ⟨_, rfl, by simp, ?_⟩
  intro p
  rw [List.getD_eq_getElem?_getD, List.getElem?_set, List.getD_eq_getElem?_getD]
  by_cases h : i = p
  · subst h
    simp [hi]
  · rw [if_neg h, if_neg (Ne.symm h)]

theorem addAll_spec (v : F) : ∀ (l : List Nat) (st : List (F × Nat)), (∀ n ∈ l, n < st.length) →
    ∃ st', l.foldlM (fun st n => addTo st v n) st = .ok st' ∧ st'.length = st.length ∧ ∀ p, st'.getD p (0, 0) =
      ((st.getD p (0, 0)).1 + (l.count p : F) * v, (st.getD p (0, 0)).2 + l.count p) := by
  intro l
  induction l with
  | nil => intro st _; exact ⟨st, rfl, rfl, fun p => by simp⟩
  | cons n l ih =>
    intro st h
    obtain ⟨s1, a1, a2, a3⟩ := addTo_spec st v n (h n (by simp))
    obtain ⟨s2, b1, b2, b3⟩ := ih s1 (fun x hx => by rw [a2]; exact h x (List.mem_cons_of_mem _ hx))
    refine ⟨s2, by rw [List.foldlM_cons, a1, ok_bind, b1], by omega, ?_⟩
    intro p
    rw [b3, a3, List.count_cons]
    by_cases e : p = n
    · subst e
      simp
      constructor
      · ring
      · ring
    · have e' : ¬ n = p := fun h => e h.symm
      simp [e, e']

/-- the cell does not touch a wall -/
def Inner (c : VCell F) : Prop := ∀ n ∈ c.ngb, 0 ≤ n

/-- the cell counts for particle `p` -/
def Near (p : Nat) (c : VCell F) : Prop := c.id = p ∨ (p : Int) ∈ c.ngb

open Classical in
theorem cgLine_spec (st : List (F × Nat)) (c : VCell F) (hid : c.id < st.length) (hn : ∀ n ∈ c.ngb, n < (st.length : Int))
    (hnd : c.ngb.Nodup) (hself : (c.id : Int) ∉ c.ngb) :
    ∃ st', cgLine st c = .ok st' ∧ st'.length = st.length ∧ ∀ p, st'.getD p (0, 0) =
      if Inner c ∧ Near p c then ((st.getD p (0, 0)).1 + c.v, (st.getD p (0, 0)).2 + 1) else st.getD p (0, 0) := by
  unfold cgLine
  dsimp only
  rw [List.length_map]
  by_cases hin : Inner c
  · have hf : c.ngb.filter (fun n => decide (0 ≤ n)) = c.ngb :=
      List.filter_eq_self.2 fun n h => decide_eq_true (hin n h)
    rw [hf, if_pos rfl]
    obtain ⟨s1, a1, a2, a3⟩ := addTo_spec st c.v c.id hid
    obtain ⟨s2, b1, b2, b3⟩ := addAll_spec c.v (c.ngb.map Int.toNat) s1 (by
      intro n h
      obtain ⟨x, hx, rfl⟩ := List.mem_map.1 h
      have := hn x hx
      have := hin x hx
      omega)
    refine ⟨s2, by rw [a1, ok_bind, b1], by omega, ?_⟩
    intro p
    have hnd' : (c.ngb.map Int.toNat).Nodup := by
      refine List.Nodup.map_on ?_ hnd
      intro x hx y hy e
      have := hin x hx
      have := hin y hy
      omega
    have hmem : p ∈ c.ngb.map Int.toNat ↔ (p : Int) ∈ c.ngb := by
      rw [List.mem_map]
      constructor
      · rintro ⟨x, hx, rfl⟩
        rw [Int.toNat_of_nonneg (hin x hx)]
        exact hx
      · intro h
        exact ⟨_, h, by simp⟩
    rw [b3, a3]
    by_cases e : p = c.id
    · have h0 : (c.ngb.map Int.toNat).count p = 0 := by
        refine List.count_eq_zero_of_not_mem fun h => hself ?_
        rw [← e]
        exact hmem.1 h
      rw [if_pos e, h0, if_pos ⟨hin, Or.inl e.symm⟩]
      simp
    · rw [if_neg e]
      by_cases h : (p : Int) ∈ c.ngb
      · have h1 : (c.ngb.map Int.toNat).count p = 1 := List.count_eq_one_of_mem hnd' (hmem.2 h)
        rw [h1, if_pos ⟨hin, Or.inr h⟩]
        simp
      · have h0 : (c.ngb.map Int.toNat).count p = 0 := List.count_eq_zero_of_not_mem fun h' => h (hmem.1 h')
        have : ¬ (Inner c ∧ Near p c) := by
          rintro ⟨-, h' | h'⟩
          · exact e h'.symm
          · exact h h'
        rw [h0, if_neg this]
        simp
  · have : (c.ngb.filter fun n => decide (0 ≤ n)).length ≠ c.ngb.length := by
      intro h
      have hf := List.length_filter_eq_length_iff.1 h
      exact hin fun n hn => of_decide_eq_true (hf n hn)
    rw [if_neg this]
    refine ⟨st, rfl, rfl, ?_⟩
    intro p
    rw [if_neg (fun h => hin h.1)]

open Classical in
theorem cgLines_spec : ∀ (cells : List (VCell F)) (st : List (F × Nat)),
    (∀ c ∈ cells, c.id < st.length ∧ (∀ n ∈ c.ngb, n < (st.length : Int)) ∧ c.ngb.Nodup ∧ (c.id : Int) ∉ c.ngb) →
    ∃ st', cells.foldlM cgLine st = .ok st' ∧ st'.length = st.length ∧ ∀ p, st'.getD p (0, 0) =
      ((st.getD p (0, 0)).1 + ((cells.filter fun c => decide (Inner c ∧ Near p c)).map VCell.v).sum,
       (st.getD p (0, 0)).2 + (cells.filter fun c => decide (Inner c ∧ Near p c)).length) := by
  intro cells
  induction cells with
  | nil => intro st _; exact ⟨st, rfl, rfl, fun p => by simp⟩
  | cons c l ih =>
    intro st h
    obtain ⟨h1, h2, h3, h4⟩ := h c (by simp)
    obtain ⟨s1, a1, a2, a3⟩ := cgLine_spec st c h1 h2 h3 h4
    obtain ⟨s2, b1, b2, b3⟩ := ih s1 (fun d hd => by rw [a2]; exact h d (List.mem_cons_of_mem _ hd))
    refine ⟨s2, by rw [List.foldlM_cons, a1, ok_bind, b1], by omega, ?_⟩
    intro p
    rw [b3, a3]
    by_cases e : Inner c ∧ Near p c
    · rw [if_pos e, List.filter_cons_of_pos (by simpa using e)]
      simp
      constructor
      · ring
      · ring
    · rw [if_neg e, List.filter_cons_of_neg (by simpa using e)]

open Classical in
/-- **C203** The coarse-grained volume of a particle is the mean of the volumes of its cell and of the cells it is a neighbour of, those that touch a wall
excepted; zero if there is none. -/
theorem C203_mean [IsStrictOrderedRing F] (size : Nat) (cells : List (VCell F))
    (h : ∀ c ∈ cells, c.id < size ∧ (∀ n ∈ c.ngb, n < (size : Int)) ∧ c.ngb.Nodup ∧ (c.id : Int) ∉ c.ngb) (hv : ∀ c ∈ cells, 0 < c.v) :
    ∃ out, cgVolume size cells = .ok out ∧ out.length = size ∧ ∀ p < size,
      out[p]? = some (if (∃ c ∈ cells, Inner c ∧ Near p c) then
        ((cells.filter fun c => decide (Inner c ∧ Near p c)).map VCell.v).sum / (cells.filter fun c => decide (Inner c ∧ Near p c)).length
        else 0) := by
  obtain ⟨st, a1, a2, a3⟩ := cgLines_spec cells (List.replicate size ((0 : F), 0)) (by simpa using h)
  unfold cgVolume
  rw [a1, ok_bind]
  refine ⟨_, rfl, by simpa using a2, ?_⟩
  intro p hp
  have hp' : p < st.length := by simpa [a2] using hp
  have hr : (List.replicate size ((0 : F), 0)).getD p (0, 0) = (0, 0) := by
    rw [List.getD_eq_getElem?_getD, List.getElem?_replicate, if_pos hp]
    rfl
  have h3 := a3 p
  rw [hr, zero_add, Nat.zero_add, List.getD_eq_getElem?_getD, List.getElem?_eq_getElem hp', Option.getD_some] at h3
  rw [List.getElem?_map, List.getElem?_eq_getElem hp', h3, Option.map_some]
  congr 1
  dsimp only
  obtain ⟨S, hS⟩ : ∃ S, S = cells.filter fun c => decide (Inner c ∧ Near p c) := ⟨_, rfl⟩
  rw [← hS]
  by_cases he : ∃ c ∈ cells, Inner c ∧ Near p c
  · rw [if_pos he]
    obtain ⟨c, hc, hc'⟩ := he
    have hcS : c ∈ S := by rw [hS]; exact List.mem_filter.2 ⟨hc, by simpa using hc'⟩
    have hlen : (S.length : F) ≠ 0 := by
      have : 0 < S.length := List.length_pos_of_mem hcS
      exact_mod_cast this.ne'
    have hpos : ∀ l : List (VCell F), (∀ d ∈ l, 0 < d.v) → l ≠ [] → 0 < (l.map VCell.v).sum := by
      intro l hl hne
      induction l with
      | nil => exact absurd rfl hne
      | cons d l ih =>
        rw [List.map_cons, List.sum_cons]
        have h1 := hl d (by simp)
        by_cases e : l = []
        · subst e; simpa using h1
        · have := ih (fun x hx => hl x (List.mem_cons_of_mem _ hx)) e
          linarith
    have hsum := hpos S (fun d hd => hv d (by rw [hS] at hd; exact (List.mem_filter.1 hd).1)) (List.ne_nil_of_mem hcS)
    rw [if_pos (mul_ne_zero hsum.ne' hlen)]
  · have : S = [] := by
      rw [hS, List.filter_eq_nil_iff]
      intro c hc h'
      exact he ⟨c, hc, by simpa using h'⟩
    rw [if_neg he, this]
    simp

end Vol

/-- three cells, one of which touches a wall -/
example : ∃ cells : List (VCell ℚ), (∀ c ∈ cells, c.id < 3 ∧ (∀ n ∈ c.ngb, n < ((3 : Nat) : Int)) ∧ c.ngb.Nodup ∧ (c.id : Int) ∉ c.ngb) ∧
    (∀ c ∈ cells, 0 < c.v) ∧ (∃ c ∈ cells, Inner c ∧ Near 1 c) ∧ ∃ c ∈ cells, ¬ Inner c := by
  refine ⟨[⟨0, 1, [1, 2]⟩, ⟨1, 2, [0, -1]⟩, ⟨2, 3, [0]⟩], ?_, ?_, ⟨_, List.mem_cons_self, ?_, Or.inr (by simp)⟩, ⟨⟨1, 2, [0, -1]⟩, by simp, ?_⟩⟩
  · simp
  · simp
  · intro n hn
    simp at hn
    omega
  · intro h
    have := h (-1) (by simp)
    omega

/-- cells of two particles between walls -/
example : ∃ cells : List Cell, cells ≠ [] ∧ (∀ c ∈ cells, c.s = c.ngb.length) ∧ (cells.map Cell.id).Nodup ∧ ∀ c ∈ cells, c.ngb.Nodup :=
  ⟨[⟨0, 2, [1, -1]⟩, ⟨1, 2, [-2, 0]⟩], by simp, by simp, by simp, by simp⟩

end Voro
end Py
end Colloids
