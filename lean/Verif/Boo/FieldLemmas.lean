import Verif.Boo.FieldModel
import Verif.Boo.Lemmas
import Verif.Bonds.Lemmas
import Verif.Clusters.Lemmas
import Verif.DynField.Lemmas

/-! # Helper lemmas on the bond orientational order of a set of particles -/

namespace Colloids
namespace Boo
open Clusters (Ngb)

/-- Sum of the contributions to `x`. -/
def sumAt {M : Type} [AddCommMonoid M] (x : Nat) (C : List (Nat × M)) : M :=
  (C.map (fun c => if c.1 = x then c.2 else 0)).sum

theorem sumAt_append {M : Type} [AddCommMonoid M] (x : Nat) (C D : List (Nat × M)) :
    sumAt x (C ++ D) = sumAt x C + sumAt x D := by simp [sumAt]

/-- Number of contributions to `x`. -/
def countAt {M : Type} (x : Nat) (C : List (Nat × M)) : Nat :=
  (C.map (fun c => if c.1 = x then 1 else 0)).sum

variable {V : Type} [AddCommGroup V]

/-- State after the contributions `C`. -/
def accOf (n : Nat) (b0 : Nat → V) (C : List (Nat × V)) : Acc V :=
  ⟨tab n (fun x => b0 x + sumAt x C), tab n (fun x => countAt x C)⟩

theorem modifyR_tab {α : Type} {n : Nat} {f : Nat → α} {t : Nat} (g : α → α) (h : t < n) :
    modifyR (tab n f) t g = .ok (tab n (fun x => if x = t then g (f x) else f x)) := by
  unfold modifyR
  rw [if_pos (by rw [tab_length]; exact h)]
  congr 1
  apply List.ext_getElem?
  intro i
  rw [List.getElem?_modify]
  unfold tab
  by_cases hi : i < n
  · simp only [List.getElem?_map, List.getElem?_range hi, Option.map_some]
    by_cases e : t = i
    · simp [e]
    · simp [e, Ne.symm e]
  · simp [hi]

theorem accOf_add (n : Nat) (b0 : Nat → V) (C : List (Nat × V)) (t : Nat) (v : V) (h : t < n) :
    (accOf n b0 C).add t v = .ok (accOf n b0 (C ++ [(t, v)])) := by
  unfold Acc.add accOf
  simp only
  rw [modifyR_tab _ h, ok_bind, modifyR_tab _ h, ok_bind, pure_eq_ok]
  congr 2
  · apply tab_congr
    intro x _
    by_cases e : x = t
    · simp [sumAt, e, add_assoc]
    · simp [sumAt, e, Ne.symm e]
  · apply tab_congr
    intro x _
    by_cases e : x = t
    · simp [countAt, e]
    · simp [countAt, e, Ne.symm e]

theorem foldlM_accOf {α : Type} (n : Nat) (b0 : Nat → V) (F : Acc V → α → R (Acc V))
    (contrib : α → List (Nat × V)) (L : List α) (C : List (Nat × V))
    (h : ∀ C, ∀ a ∈ L, F (accOf n b0 C) a = .ok (accOf n b0 (C ++ contrib a))) :
    L.foldlM F (accOf n b0 C) = .ok (accOf n b0 (C ++ L.flatMap contrib)) := by
  induction L generalizing C with
  | nil => simp
  | cons a L ih =>
    rw [List.foldlM_cons, h C a (by simp), ok_bind, ih _ (fun C a ha => h C a (by simp [ha]))]
    simp

theorem foldlM_accOf2 {α : Type} (n : Nat) (b0 s0 : Nat → V)
    (F : Acc V × Acc V → α → R (Acc V × Acc V))
    (c1 c2 : α → List (Nat × V)) (L : List α) (C D : List (Nat × V))
    (h : ∀ C D, ∀ a ∈ L, F (accOf n b0 C, accOf n s0 D) a
      = .ok (accOf n b0 (C ++ c1 a), accOf n s0 (D ++ c2 a))) :
    L.foldlM F (accOf n b0 C, accOf n s0 D)
      = .ok (accOf n b0 (C ++ L.flatMap c1), accOf n s0 (D ++ L.flatMap c2)) := by
  induction L generalizing C D with
  | nil => simp
  | cons a L ih =>
    rw [List.foldlM_cons, h C D a (by simp), ok_bind, ih _ _ (fun C D a ha => h C D a (by simp [ha]))]
    simp

/-- Previous contents of the array. -/
def prev (boos : List V) (x : Nat) : V := boos[x]?.getD 0

theorem accOf_start (n : Nat) (boos : List V) : Acc.start n boos = accOf n (prev boos) [] := by
  unfold Acc.start accOf
  congr 1
  · apply List.ext_getElem?
    intro i
    unfold resizeTo tab
    by_cases hi : i < n
    · rw [List.getElem?_map, List.getElem?_range hi]
      by_cases ho : i < boos.length
      · rw [List.getElem?_append_left (by simp; omega), List.getElem?_take_of_lt hi]
        simp [ho, prev, sumAt]
      · rw [List.getElem?_append_right (by simp; omega), List.getElem?_replicate,
          if_pos (by simp; omega)]
        simp [prev, sumAt, List.getElem?_eq_none (Nat.le_of_not_lt ho)]
    · rw [List.getElem?_eq_none (by simp; omega), List.getElem?_eq_none (by simp; omega)]
  · apply List.ext_getElem?
    intro i
    unfold tab
    by_cases hi : i < n
    · simp [hi, countAt]
    · simp [hi]

/-- What a neighbour list of `n` particles is: sorted rows, symmetric, irreflexive. -/
structure GoodNgbs (n : Nat) (ngbs : NgbList) : Prop where
  len : ngbs.length = n
  sorted : ∀ row ∈ ngbs, row.Pairwise (· < ·)
  symm : ∀ p q, Ngb ngbs p q → Ngb ngbs q p
  irrefl : ∀ p, ¬ Ngb ngbs p p

/-- The row of a particle. -/
def rowOf (ngbs : NgbList) (p : Nat) : List Nat := ngbs[p]?.getD []

variable {n : Nat} {ngbs : NgbList}

theorem mem_rowOf {p q : Nat} : q ∈ rowOf ngbs p ↔ Ngb ngbs p q := by
  unfold rowOf Ngb
  cases h : ngbs[p]? with
  | none => simp
  | some row => simp

theorem GoodNgbs.row_sorted (h : GoodNgbs n ngbs) (p : Nat) :
    (rowOf ngbs p).Pairwise (· < ·) := by
  unfold rowOf
  cases e : ngbs[p]? with
  | none => simp
  | some row => exact h.sorted row (List.mem_of_getElem? e)

theorem GoodNgbs.row_nodup (h : GoodNgbs n ngbs) (p : Nat) : (rowOf ngbs p).Nodup :=
  (h.row_sorted p).imp (fun h => Nat.ne_of_lt h)

theorem GoodNgbs.lt (h : GoodNgbs n ngbs) {p q : Nat} (hq : q ∈ rowOf ngbs p) : p < n ∧ q < n := by
  have h1 : ∀ a b, Ngb ngbs a b → a < n := by
    rintro a b ⟨row, hr, _⟩
    rw [← h.len]
    exact (List.getElem?_eq_some_iff.1 hr).1
  rw [mem_rowOf] at hq
  exact ⟨h1 _ _ hq, h1 _ _ (h.symm _ _ hq)⟩

theorem getR_rowOf (h : GoodNgbs n ngbs) {p : Nat} (hp : p < n) :
    getR ngbs p = .ok (rowOf ngbs p) := by
  rw [getR_of_lt (by rw [h.len]; exact hp)]
  simp [rowOf, h.len, hp]

/-- The neighbours of larger index. -/
def up (ngbs : NgbList) (p : Nat) : List Nat := fromLowerBound (rowOf ngbs p) (p + 1)

theorem mem_up (h : GoodNgbs n ngbs) {p q : Nat} :
    q ∈ up ngbs p ↔ q ∈ rowOf ngbs p ∧ p < q := by
  unfold up
  rw [mem_fromLowerBound (h.row_sorted p)]
  rfl

theorem up_nodup (h : GoodNgbs n ngbs) (p : Nat) : (up ngbs p).Nodup :=
  (h.row_nodup p).sublist (List.drop_sublist _ _)

theorem mem_setIntersectionAux (fuel : Nat) (l l' : List Nat) (hf : l.length + l'.length ≤ fuel)
    (hl : l.Pairwise (· < ·)) (hl' : l'.Pairwise (· < ·)) (x : Nat) :
    x ∈ setIntersectionAux fuel l l' ↔ x ∈ l ∧ x ∈ l' := by
  induction fuel generalizing l l' with
  | zero =>
    have : l = [] := List.eq_nil_of_length_eq_zero (by omega)
    simp [setIntersectionAux, this]
  | succ fuel ih =>
    cases l with
    | nil => simp [setIntersectionAux]
    | cons a l =>
      cases l' with
      | nil => simp [setIntersectionAux]
      | cons b l' =>
        simp only [List.length_cons] at hf
        have ha := List.pairwise_cons.1 hl
        have hb := List.pairwise_cons.1 hl'
        unfold setIntersectionAux
        split
        · rename_i hab
          rw [ih l (b :: l') (by simp; omega) ha.2 hl']
          constructor
          · rintro ⟨h1, h2⟩; exact ⟨List.mem_cons_of_mem _ h1, h2⟩
          · rintro ⟨h1, h2⟩
            refine ⟨?_, h2⟩
            rcases List.mem_cons.1 h1 with rfl | h1
            · rcases List.mem_cons.1 h2 with rfl | h2
              · omega
              · have := hb.1 x h2; omega
            · exact h1
        · split
          · rename_i hab hba
            rw [ih (a :: l) l' (by simp; omega) hl hb.2]
            constructor
            · rintro ⟨h1, h2⟩; exact ⟨h1, List.mem_cons_of_mem _ h2⟩
            · rintro ⟨h1, h2⟩
              refine ⟨h1, ?_⟩
              rcases List.mem_cons.1 h2 with rfl | h2
              · rcases List.mem_cons.1 h1 with rfl | h1
                · omega
                · have := ha.1 x h1; omega
              · exact h2
          · rename_i hab hba
            have e : a = b := by omega
            subst e
            rw [List.mem_cons, ih l l' (by omega) ha.2 hb.2, List.mem_cons, List.mem_cons]
            constructor
            · rintro (rfl | ⟨h1, h2⟩)
              · exact ⟨.inl rfl, .inl rfl⟩
              · exact ⟨.inr h1, .inr h2⟩
            · rintro ⟨h1, h2⟩
              rcases h1 with rfl | h1
              · exact .inl rfl
              · rcases h2 with rfl | h2
                · exact .inl rfl
                · exact .inr ⟨h1, h2⟩

theorem setIntersectionAux_sublist (fuel : Nat) (l l' : List Nat) :
    (setIntersectionAux fuel l l').Sublist l := by
  induction fuel generalizing l l' with
  | zero => simp [setIntersectionAux]
  | succ fuel ih =>
    cases l with
    | nil => simp [setIntersectionAux]
    | cons a l =>
      cases l' with
      | nil => simp [setIntersectionAux]
      | cons b l' =>
        unfold setIntersectionAux
        split
        · exact (ih _ _).trans (List.sublist_cons_self _ _)
        · split
          · exact ih _ _
          · exact (ih _ _).cons_cons _

/-- The common neighbours. -/
def common (ngbs : NgbList) (p q : Nat) : List Nat := setIntersection (rowOf ngbs p) (rowOf ngbs q)

theorem mem_common (h : GoodNgbs n ngbs) {p q x : Nat} :
    x ∈ common ngbs p q ↔ x ∈ rowOf ngbs p ∧ x ∈ rowOf ngbs q :=
  mem_setIntersectionAux _ _ _ le_rfl (h.row_sorted p) (h.row_sorted q) x

theorem common_nodup (h : GoodNgbs n ngbs) (p q : Nat) : (common ngbs p q).Nodup :=
  (h.row_nodup p).sublist (setIntersectionAux_sublist _ _ _)

/-! ### Contributions -/

/-- Contributions of the bonds to their ends. -/
def bondContrib {M : Type} (n : Nat) (ngbs : NgbList) (y : Nat → Nat → M) : List (Nat × M) :=
  (List.range n).flatMap (fun p => (up ngbs p).flatMap (fun q => [(p, y p q), (q, y p q)]))

/-- Contributions of the bonds to their ends and to the common neighbours of their ends. -/
def surfContrib {M : Type} (n : Nat) (ngbs : NgbList) (y : Nat → Nat → M) : List (Nat × M) :=
  (List.range n).flatMap (fun p => (up ngbs p).flatMap (fun q =>
    [(p, y p q), (q, y p q)] ++ (common ngbs p q).map (fun c => (c, y p q))))

section sums
variable {M : Type} [AddCommMonoid M]

theorem sumAt_flatMap {α : Type} (x : Nat) (L : List α) (f : α → List (Nat × M)) :
    sumAt x (L.flatMap f) = (L.map (fun a => sumAt x (f a))).sum := by
  induction L with
  | nil => simp [sumAt]
  | cons a L ih => rw [List.flatMap_cons, sumAt_append, ih]; simp

theorem sum_nodup {α : Type} [DecidableEq α] {L : List α} (h : L.Nodup) (f : α → M) :
    (L.map f).sum = ∑ a ∈ L.toFinset, f a := (List.sum_toFinset f h).symm

theorem sum_if_eq {L : List Nat} (h : L.Nodup) (x : Nat) (v : M) :
    (L.map (fun c => if c = x then v else 0)).sum = if x ∈ L then v else 0 := by
  rw [sum_nodup h, Finset.sum_ite_eq']
  simp

/-- What the bonds bring to particle `x`. -/
theorem sumAt_bond (h : GoodNgbs n ngbs) (y : Nat → Nat → M) (hy : ∀ p q, y p q = y q p) (x : Nat)
    (hx : x < n) : sumAt x (bondContrib n ngbs y) = ((rowOf ngbs x).map (fun q => y x q)).sum := by
  unfold bondContrib
  rw [sumAt_flatMap, sum_nodup List.nodup_range, List.toFinset_range]
  have e1 : ∀ p ∈ Finset.range n, sumAt x ((up ngbs p).flatMap (fun q => [(p, y p q), (q, y p q)]))
      = (if p = x then ∑ q ∈ (up ngbs x).toFinset, y x q else 0)
        + (if x ∈ up ngbs p then y p x else 0) := by
    intro p _
    rw [sumAt_flatMap]
    have : ∀ q, sumAt x [(p, y p q), (q, y p q)]
        = (if p = x then y p q else 0) + (if q = x then y p x else 0) := by
      intro q
      by_cases e : q = x
      · simp [sumAt, e]
      · simp [sumAt, e]
    simp only [this]
    rw [List.sum_map_add, sum_if_eq (up_nodup h p)]
    congr 1
    by_cases e : p = x
    · subst e; simp only [if_true]; rw [sum_nodup (up_nodup h p)]
    · simp [e]
  rw [Finset.sum_congr rfl e1, Finset.sum_add_distrib, Finset.sum_ite_eq' (Finset.range n) x,
    if_pos (Finset.mem_range.2 hx), sum_nodup (h.row_nodup x)]
  have e2 : ∑ p ∈ Finset.range n, (if x ∈ up ngbs p then y p x else 0)
      = ∑ p ∈ (rowOf ngbs x).toFinset.filter (fun p => p < x), y x p := by
    rw [← Finset.sum_filter]
    apply Finset.sum_congr
    · ext p
      simp only [Finset.mem_filter, Finset.mem_range, List.mem_toFinset]
      rw [mem_up h, mem_rowOf, mem_rowOf]
      constructor
      · rintro ⟨_, h1, h2⟩; exact ⟨h.symm _ _ h1, h2⟩
      · rintro ⟨h1, h2⟩
        exact ⟨(h.lt (mem_rowOf.2 h1)).2, h.symm _ _ h1, h2⟩
    · intro p _; exact hy p x
  have e3 : (up ngbs x).toFinset = (rowOf ngbs x).toFinset.filter (fun p => ¬ p < x) := by
    ext p
    simp only [Finset.mem_filter, List.mem_toFinset]
    rw [mem_up h]
    constructor
    · rintro ⟨h1, h2⟩; exact ⟨h1, by omega⟩
    · rintro ⟨h1, h2⟩
      refine ⟨h1, ?_⟩
      have : p ≠ x := by
        rintro rfl
        exact h.irrefl p (mem_rowOf.1 h1)
      omega
  rw [e2, e3, add_comm, Finset.sum_filter_add_sum_filter_not]

/-- What the bonds and the surface bonds bring to particle `x`. -/
theorem sumAt_surf (h : GoodNgbs n ngbs) (y : Nat → Nat → M) (hy : ∀ p q, y p q = y q p) (x : Nat)
    (hx : x < n) : sumAt x (surfContrib n ngbs y) = ((rowOf ngbs x).map (fun q => y x q)).sum
      + ((rowOf ngbs x).map (fun p => (((rowOf ngbs x).filter
          (fun q => decide (p < q ∧ q ∈ rowOf ngbs p))).map (fun q => y p q)).sum)).sum := by
  have e : sumAt x (surfContrib n ngbs y) = sumAt x (bondContrib n ngbs y)
      + ((List.range n).map (fun p => ((up ngbs p).map (fun q =>
          if x ∈ common ngbs p q then y p q else 0)).sum)).sum := by
    unfold surfContrib bondContrib
    rw [sumAt_flatMap, sumAt_flatMap, ← List.sum_map_add]
    congr 1
    apply List.map_congr_left
    intro p _
    rw [sumAt_flatMap, sumAt_flatMap, ← List.sum_map_add]
    congr 1
    apply List.map_congr_left
    intro q _
    rw [sumAt_append]
    congr 1
    unfold sumAt
    rw [List.map_map]
    exact sum_if_eq (common_nodup h p q) x (y p q)
  rw [e, sumAt_bond h y hy x hx]
  congr 1
  rw [sum_nodup List.nodup_range, List.toFinset_range, sum_nodup (h.row_nodup x)]
  have e4 : ∀ p ∈ Finset.range n, ((up ngbs p).map (fun q =>
        if x ∈ common ngbs p q then y p q else 0)).sum
      = if p ∈ (rowOf ngbs x).toFinset then (((rowOf ngbs x).filter
          (fun q => decide (p < q ∧ q ∈ rowOf ngbs p))).map (fun q => y p q)).sum else 0 := by
    intro p _
    rw [sum_nodup (up_nodup h p), sum_nodup ((h.row_nodup x).filter _), ← Finset.sum_filter]
    by_cases hp : p ∈ (rowOf ngbs x).toFinset
    · rw [if_pos hp]
      apply Finset.sum_congr _ (fun _ _ => rfl)
      rw [List.mem_toFinset, mem_rowOf] at hp
      ext q
      simp only [Finset.mem_filter, List.mem_toFinset, List.mem_filter, decide_eq_true_eq]
      rw [mem_up h, mem_common h, mem_rowOf, mem_rowOf, mem_rowOf, mem_rowOf]
      constructor
      · rintro ⟨⟨h1, h2⟩, h3, h4⟩; exact ⟨h.symm _ _ h4, h2, h1⟩
      · rintro ⟨h1, h2, h3⟩; exact ⟨⟨h3, h2⟩, h.symm _ _ hp, h.symm _ _ h1⟩
    · rw [if_neg hp]
      apply Finset.sum_eq_zero
      intro q hq
      exfalso
      simp only [Finset.mem_filter, List.mem_toFinset] at hq
      rw [mem_common h] at hq
      apply hp
      rw [List.mem_toFinset, mem_rowOf]
      exact h.symm _ _ (mem_rowOf.1 hq.2.1)
  rw [Finset.sum_congr rfl e4, ← Finset.sum_filter]
  apply Finset.sum_congr _ (fun _ _ => rfl)
  ext p
  simp only [Finset.mem_filter, Finset.mem_range, List.mem_toFinset]
  constructor
  · rintro ⟨_, h1⟩; exact h1
  · intro h1; exact ⟨(h.lt h1).2, h1⟩

end sums

theorem countAt_eq {M : Type} (x : Nat) (C : List (Nat × M)) :
    countAt x C = sumAt x (C.map (fun c => (c.1, (1 : Nat)))) := by
  unfold countAt sumAt
  rw [List.map_map]
  rfl

theorem countAt_bond {M : Type} (h : GoodNgbs n ngbs) (y : Nat → Nat → M) (x : Nat) (hx : x < n) :
    countAt x (bondContrib n ngbs y) = (rowOf ngbs x).length := by
  have : (bondContrib n ngbs y).map (fun c => (c.1, (1 : Nat)))
      = bondContrib n ngbs (fun _ _ => (1 : Nat)) := by
    unfold bondContrib
    simp [List.map_flatMap]
  rw [countAt_eq, this, sumAt_bond h _ (fun _ _ => rfl) x hx]
  simp

/-- Number of bonds between neighbours of `x`. -/
def betweenCount (ngbs : NgbList) (x : Nat) : Nat :=
  ((rowOf ngbs x).map (fun p => ((rowOf ngbs x).filter
    (fun q => decide (p < q ∧ q ∈ rowOf ngbs p))).length)).sum

theorem countAt_surf {M : Type} (h : GoodNgbs n ngbs) (y : Nat → Nat → M) (x : Nat) (hx : x < n) :
    countAt x (surfContrib n ngbs y) = (rowOf ngbs x).length + betweenCount ngbs x := by
  have : (surfContrib n ngbs y).map (fun c => (c.1, (1 : Nat)))
      = surfContrib n ngbs (fun _ _ => (1 : Nat)) := by
    unfold surfContrib
    simp [List.map_flatMap, Function.comp_def]
  rw [countAt_eq, this, sumAt_surf h _ (fun _ _ => rfl) x hx]
  simp [betweenCount]

/-! ### The loops -/

variable [Module ℝ V]

theorem sphHarm_ok {sph : Nat → Nat → V} (h : GoodNgbs n ngbs) {p q : Nat}
    (hq : q ∈ rowOf ngbs p) : sphHarm n sph p q = .ok (sph p q) := by
  unfold sphHarm
  rw [if_pos (h.lt hq)]

theorem loop_bond (h : GoodNgbs n ngbs) (sph : Nat → Nat → V) (b0 : Nat → V) :
    (List.range ngbs.length).foldlM (fun acc p => do
      let row ← getR ngbs p
      (fromLowerBound row (p + 1)).foldlM (fun acc q => do
        let y ← sphHarm n sph p q
        let acc ← Acc.add acc p y
        Acc.add acc q y) acc) (accOf n b0 [])
      = .ok (accOf n b0 (bondContrib n ngbs sph)) := by
  rw [h.len]
  have := foldlM_accOf n b0 (fun acc p => do
      let row ← getR ngbs p
      (fromLowerBound row (p + 1)).foldlM (fun acc q => do
        let y ← sphHarm n sph p q
        let acc ← Acc.add acc p y
        Acc.add acc q y) acc)
    (fun p => (up ngbs p).flatMap (fun q => [(p, sph p q), (q, sph p q)])) (List.range n) [] ?_
  · rw [this]; rfl
  · intro C p hp
    rw [List.mem_range] at hp
    rw [getR_rowOf h hp, ok_bind]
    apply foldlM_accOf
    intro C q hq
    have hq' := ((mem_up h).1 hq).1
    rw [sphHarm_ok h hq', ok_bind, accOf_add _ _ _ _ _ hp, ok_bind, accOf_add _ _ _ _ _ (h.lt hq').2]
    simp

omit [Module ℝ V] in
theorem loop_common (h : GoodNgbs n ngbs) (b0 : Nat → V) (C : List (Nat × V)) (p q : Nat) (y : V) :
    (common ngbs p q).foldlM (fun acc c => Acc.add acc c y) (accOf n b0 C)
      = .ok (accOf n b0 (C ++ (common ngbs p q).map (fun c => (c, y)))) := by
  rw [List.map_eq_flatMap]
  apply foldlM_accOf
  intro C c hc
  have := (h.lt ((mem_common h).1 hc).1).2
  rw [accOf_add _ _ _ _ _ this]

theorem loop_surf (h : GoodNgbs n ngbs) (sph : Nat → Nat → V) (b0 : Nat → V) :
    (List.range ngbs.length).foldlM (fun acc p => do
      let row ← getR ngbs p
      (fromLowerBound row (p + 1)).foldlM (fun acc q => do
        let y ← sphHarm n sph p q
        let acc ← Acc.add acc p y
        let acc ← Acc.add acc q y
        let rowq ← getR ngbs q
        (setIntersection row rowq).foldlM (fun acc c => Acc.add acc c y) acc) acc) (accOf n b0 [])
      = .ok (accOf n b0 (surfContrib n ngbs sph)) := by
  rw [h.len]
  have := foldlM_accOf n b0 (fun acc p => do
      let row ← getR ngbs p
      (fromLowerBound row (p + 1)).foldlM (fun acc q => do
        let y ← sphHarm n sph p q
        let acc ← Acc.add acc p y
        let acc ← Acc.add acc q y
        let rowq ← getR ngbs q
        (setIntersection row rowq).foldlM (fun acc c => Acc.add acc c y) acc) acc)
    (fun p => (up ngbs p).flatMap (fun q =>
      [(p, sph p q), (q, sph p q)] ++ (common ngbs p q).map (fun c => (c, sph p q))))
    (List.range n) [] ?_
  · rw [this]; rfl
  · intro C p hp
    rw [List.mem_range] at hp
    rw [getR_rowOf h hp, ok_bind]
    apply foldlM_accOf
    intro C q hq
    have hq' := ((mem_up h).1 hq).1
    rw [sphHarm_ok h hq', ok_bind, accOf_add _ _ _ _ _ hp, ok_bind, accOf_add _ _ _ _ _ (h.lt hq').2,
      ok_bind, getR_rowOf h (h.lt hq').2, ok_bind]
    have := loop_common h b0 (C ++ [(p, sph p q)] ++ [(q, sph p q)]) p q (sph p q)
    unfold common at this
    rw [this]
    simp [common]

theorem loop_both (h : GoodNgbs n ngbs) (sph : Nat → Nat → V) (b0 s0 : Nat → V) :
    (List.range ngbs.length).foldlM (fun (acc : Acc V × Acc V) p => do
      let row ← getR ngbs p
      (fromLowerBound row (p + 1)).foldlM (fun (acc : Acc V × Acc V) q => do
        let y ← sphHarm n sph p q
        let a ← Acc.add acc.1 p y
        let a ← Acc.add a q y
        let s ← Acc.add acc.2 p y
        let s ← Acc.add s q y
        let rowq ← getR ngbs q
        let s ← (setIntersection row rowq).foldlM (fun acc c => Acc.add acc c y) s
        pure (a, s)) acc) (accOf n b0 [], accOf n s0 [])
      = .ok (accOf n b0 (bondContrib n ngbs sph), accOf n s0 (surfContrib n ngbs sph)) := by
  rw [h.len]
  have := foldlM_accOf2 n b0 s0 (fun (acc : Acc V × Acc V) p => do
      let row ← getR ngbs p
      (fromLowerBound row (p + 1)).foldlM (fun (acc : Acc V × Acc V) q => do
        let y ← sphHarm n sph p q
        let a ← Acc.add acc.1 p y
        let a ← Acc.add a q y
        let s ← Acc.add acc.2 p y
        let s ← Acc.add s q y
        let rowq ← getR ngbs q
        let s ← (setIntersection row rowq).foldlM (fun acc c => Acc.add acc c y) s
        pure (a, s)) acc)
    (fun p => (up ngbs p).flatMap (fun q => [(p, sph p q), (q, sph p q)]))
    (fun p => (up ngbs p).flatMap (fun q =>
      [(p, sph p q), (q, sph p q)] ++ (common ngbs p q).map (fun c => (c, sph p q))))
    (List.range n) [] [] ?_
  · rw [this]; rfl
  · intro C D p hp
    rw [List.mem_range] at hp
    rw [getR_rowOf h hp, ok_bind]
    apply foldlM_accOf2
    intro C D q hq
    have hq' := ((mem_up h).1 hq).1
    dsimp only
    rw [sphHarm_ok h hq', ok_bind, accOf_add _ _ _ _ _ hp, ok_bind, accOf_add _ _ _ _ _ (h.lt hq').2,
      ok_bind, accOf_add _ _ _ _ _ hp, ok_bind, accOf_add _ _ _ _ _ (h.lt hq').2,
      ok_bind, getR_rowOf h (h.lt hq').2, ok_bind]
    have := loop_common h s0 (D ++ [(p, sph p q)] ++ [(q, sph p q)]) p q (sph p q)
    unfold common at this
    rw [this]
    simp [common]

theorem divide_eq (n : Nat) (b0 : Nat → V) (C : List (Nat × V)) :
    (accOf n b0 C).divide n = .ok (tab n (fun x => if countAt x C = 0 then none
      else some ((countAt x C : ℝ)⁻¹ • (b0 x + sumAt x C)))) := by
  unfold Acc.divide accOf
  apply mapM_tab
  intro i hi
  simp only
  rw [getR_tab hi, getR_tab hi]
  rfl

theorem divideSafe_eq (n : Nat) (b0 : Nat → V) (C : List (Nat × V)) :
    (accOf n b0 C).divideSafe n = .ok (tab n (fun x => if countAt x C ≠ 0 then
      (countAt x C : ℝ)⁻¹ • (b0 x + sumAt x C) else b0 x + sumAt x C)) := by
  unfold Acc.divideSafe accOf
  apply mapM_tab
  intro i hi
  simp only
  rw [getR_tab hi, getR_tab hi]
  rfl

theorem getBOO_eq (h : GoodNgbs n ngbs) (sph : Nat → Nat → V) {x : Nat} (hx : x < n) :
    getBOO n ngbs sph x = .ok (if rowOf ngbs x = [] then 0 else
      ((rowOf ngbs x).length : ℝ)⁻¹ • ((rowOf ngbs x).map (fun q => sph x q)).sum) := by
  unfold getBOO
  rw [getR_rowOf h hx, ok_bind]
  by_cases e : rowOf ngbs x = []
  · rw [if_pos e, if_neg (by simp [e])]; rfl
  · rw [if_neg e, if_pos (List.length_pos_of_ne_nil e)]
    rw [foldlM_add _ (fun q => sph x q) _ _ ?_]
    · simp
    · intro s q hq
      rw [sphHarm_ok h hq]; rfl

end Boo
end Colloids
