import Verif.Structure.Lemmas

/-! # C86-C89 : pairs of particles defined by the ring of their common neighbours -/

namespace Colloids
namespace Structure
open Boo Dyn Clusters

variable {n : Nat} {ngbs : NgbList}

/-- The common neighbours of `p` and `q` are exactly the five distinct particles `r 0`, ..., `r 4`, and
among them each one is linked to the previous and to the next one only. -/
def FiveRing (ngbs : NgbList) (p q : Nat) : Prop :=
  ∃ r : Fin 5 → Nat, (∀ i j, r i = r j → i = j) ∧
    (∀ c, (Ngb ngbs p c ∧ Ngb ngbs q c) ↔ ∃ i, r i = c) ∧
    ∀ i j, Ngb ngbs (r i) (r j) ↔ (j = i + 1 ∨ i = j + 1)

theorem mem_common' (h : GoodNgbs n ngbs) {p q c : Nat} :
    c ∈ common ngbs p q ↔ Ngb ngbs p c ∧ Ngb ngbs q c := by
  rw [mem_common h, mem_rowOf, mem_rowOf]

open Classical in
theorem fiveRing_of (h : GoodNgbs n ngbs) {p q : Nat} (hr : RingPair ngbs 5 p q) :
    FiveRing ngbs p q := by
  obtain ⟨hl, htwo⟩ := hr
  have hnd := common_nodup h p q
  generalize hC : common ngbs p q = C at *
  let v : Fin 5 → Nat := fun i => C[i.val]'(by omega)
  have hv : ∀ c, c ∈ C ↔ ∃ i, v i = c := by
    intro c
    rw [List.mem_iff_getElem]
    constructor
    · rintro ⟨i, hi, e⟩
      exact ⟨⟨i, by omega⟩, e⟩
    · rintro ⟨i, e⟩
      exact ⟨i.val, by omega, e⟩
  have hinj : ∀ i j, v i = v j → i = j := by
    intro i j e
    have := (List.Nodup.getElem_inj_iff hnd).1 e
    exact Fin.ext this
  let e : Fin 5 → Fin 5 → Bool := fun i j => decide (Ngb ngbs (v i) (v j))
  have esymm : ∀ i j, e i j = e j i := by
    intro i j
    have : Ngb ngbs (v i) (v j) ↔ Ngb ngbs (v j) (v i) := ⟨h.symm _ _, h.symm _ _⟩
    simp only [e, this]
  have eirr : ∀ i, e i i = false := by
    intro i
    simp only [e, decide_eq_false_iff_not]
    exact h.irrefl _
  have hadj : ∀ x y, adj5 (e 0 1) (e 0 2) (e 0 3) (e 0 4) (e 1 2) (e 1 3) (e 1 4) (e 2 3) (e 2 4)
      (e 3 4) x y = e x y := by
    intro x y
    fin_cases x <;> fin_cases y <;> first
      | exact (eirr _).symm
      | rfl
      | exact esymm _ _
  have hdeg : ∀ x : Fin 5, ((List.finRange 5).filter (fun y => adj5 (e 0 1) (e 0 2) (e 0 3) (e 0 4)
      (e 1 2) (e 1 3) (e 1 4) (e 2 3) (e 2 4) (e 3 4) x y)).length = 2 := by
    intro x
    obtain ⟨a, b, ha, hb, hab, na, nb, hd⟩ := htwo (v x) ((hv _).2 ⟨x, rfl⟩)
    obtain ⟨i, rfl⟩ := (hv a).1 ha
    obtain ⟨j, rfl⟩ := (hv b).1 hb
    have hij : i ≠ j := fun e => hab (by rw [e])
    have hp : ((List.finRange 5).filter (fun y => adj5 (e 0 1) (e 0 2) (e 0 3) (e 0 4)
      (e 1 2) (e 1 3) (e 1 4) (e 2 3) (e 2 4) (e 3 4) x y)).Perm [i, j] := by
      rw [List.perm_ext_iff_of_nodup ((List.nodup_finRange 5).filter _) (by simp [hij])]
      intro y
      rw [List.mem_filter, hadj]
      simp only [List.mem_finRange, true_and, e, decide_eq_true_eq, List.mem_cons, List.not_mem_nil,
        or_false]
      constructor
      · intro hy
        rcases hd (v y) ((hv _).2 ⟨y, rfl⟩) hy with h | h
        · exact Or.inl (hinj _ _ h)
        · exact Or.inr (hinj _ _ h)
      · rintro (rfl | rfl)
        · exact na
        · exact nb
    rw [hp.length_eq]
    rfl
  obtain ⟨s, _, snd, sl, hs⟩ := ring5_bool _ _ _ _ _ _ _ _ _ _ hdeg
  have hsinj : ∀ i j : Fin 5, s.getD i.val 0 = s.getD j.val 0 → i = j := by
    intro i j e
    have hi : i.val < s.length := by omega
    have hj : j.val < s.length := by omega
    rw [List.getD_eq_getElem?_getD, List.getD_eq_getElem?_getD, List.getElem?_eq_getElem hi,
      List.getElem?_eq_getElem hj] at e
    exact Fin.ext ((List.Nodup.getElem_inj_iff snd).1 e)
  refine ⟨fun i => v (s.getD i.val 0), fun i j e => hsinj i j (hinj _ _ e), ?_, ?_⟩
  · intro c
    rw [← mem_common' h, hC, hv]
    constructor
    · rintro ⟨i, rfl⟩
      have hsurj := Finite.injective_iff_surjective.1 (show Function.Injective
        (fun i : Fin 5 => s.getD i.val 0) from fun i j e => hsinj i j e)
      obtain ⟨j, hj⟩ := hsurj i
      exact ⟨j, by rw [← hj]⟩
    · rintro ⟨i, e⟩
      exact ⟨_, e⟩
  · intro i j
    have := hs i j
    rw [hadj] at this
    simp only [e] at this
    exact decide_eq_decide.1 this

theorem ringPair_of (h : GoodNgbs n ngbs) {p q : Nat} (hr : FiveRing ngbs p q) :
    RingPair ngbs 5 p q := by
  obtain ⟨r, hinj, hmem, hring⟩ := hr
  have hp : (common ngbs p q).Perm (List.ofFn r) := by
    rw [List.perm_ext_iff_of_nodup (common_nodup h p q)
      (List.nodup_ofFn.2 (fun i j e => hinj i j e))]
    intro c
    rw [mem_common' h, hmem, List.mem_ofFn]
  refine ⟨by rw [hp.length_eq, List.length_ofFn], ?_⟩
  intro c hc
  obtain ⟨i, rfl⟩ := (hmem c).1 ((mem_common' h).1 hc)
  have hm : ∀ i, r i ∈ common ngbs p q := fun i => (mem_common' h).2 ((hmem _).2 ⟨i, rfl⟩)
  have key : ∀ i j : Fin 5, (j = i + 1 ∨ i = j + 1) ↔ (j = i + 1 ∨ j = i + 4) := by decide
  have hne : ∀ i : Fin 5, i + 1 ≠ i + 4 := by decide
  refine ⟨r (i + 1), r (i + 4), hm _, hm _, fun e => hne i (hinj _ _ e),
    (hring _ _).2 ((key _ _).2 (Or.inl rfl)), (hring _ _).2 ((key _ _).2 (Or.inr rfl)), ?_⟩
  intro d hd hn
  obtain ⟨j, rfl⟩ := (hmem d).1 ((mem_common' h).1 hd)
  rcases (key _ _).1 ((hring _ _).1 hn) with rfl | rfl
  · exact Or.inl rfl
  · exact Or.inr rfl

/-- `get1551pairs` gives exactly the linked pairs of which the common neighbours form a ring of five. -/
theorem C86_1551 (h : GoodNgbs n ngbs) : ∃ ret, get1551pairs ngbs = .ok ret ∧ IsBondSet ret ∧
    ∀ b : Bond, b ∈ ret ↔ b.low < b.high ∧ Ngb ngbs b.low b.high ∧ FiveRing ngbs b.low b.high := by
  obtain ⟨ret, e, hs, hm⟩ := outer_loop (ret := []) (f := fun (ret : List Bond) (p : Nat) => do
    let row ← getR ngbs p
    (fromLowerBound row (p + 1)).foldlM (fun (ret : List Bond) (q : Nat) => do
      let rowq ← getR ngbs q
      insertRing ngbs 5 p q (setIntersection row rowq) ret) ret)
    (P := fun p q => q ∈ up ngbs p ∧ RingPair ngbs 5 p q) (List.range n) (by
      intro p hp ret hs
      rw [List.mem_range] at hp
      rw [getR_rowOf h hp, ok_bind]
      obtain ⟨ret', e, hs', hm⟩ := inner_loop (p := p) (P := fun q => RingPair ngbs 5 p q)
        (fromLowerBound (rowOf ngbs p) (p + 1)) (f := fun (ret : List Bond) (q : Nat) => do
          let rowq ← getR ngbs q
          insertRing ngbs 5 p q (setIntersection (rowOf ngbs p) rowq) ret) (by
          intro q hq ret hs
          have hqn := (h.lt ((mem_up h).1 hq).1).2
          beta_reduce
          rw [getR_rowOf h hqn, ok_bind]
          exact insertRing_ok h 5 p q hs) hs
      refine ⟨ret', e, hs', ?_⟩
      intro b
      rw [hm]
      simp only [and_assoc]
      rfl) List.Pairwise.nil
  refine ⟨ret, ?_, hs, ?_⟩
  · unfold get1551pairs
    rw [h.len]
    exact e
  · intro b
    rw [hm, mem_pairs (P := fun p q => q ∈ up ngbs p ∧ RingPair ngbs 5 p q) (by
      rintro p q ⟨h1, _⟩
      have := (mem_up h).1 h1
      exact ⟨this.2, (h.lt this.1).1⟩)]
    rw [mem_up h, mem_rowOf]
    constructor
    · rintro ⟨⟨h1, h2⟩, h3⟩
      exact ⟨h2, h1, fiveRing_of h h3⟩
    · rintro ⟨h1, h2, h3⟩
      exact ⟨⟨h2, h1⟩, ringPair_of h h3⟩

/-- Two poles linked to each other and to the five particles of a ring. -/
def bipyramid : NgbList :=
  [[1, 2, 3, 4, 5, 6], [0, 2, 3, 4, 5, 6], [0, 1, 3, 6], [0, 1, 2, 4], [0, 1, 3, 5], [0, 1, 4, 6],
   [0, 1, 2, 5]]

theorem good_of_check {n : Nat} {l : NgbList} (hn : l.length = n) (h1 : l.all (fun r => decide (r.Pairwise (· < ·))) = true)
    (h2 : (l.zipIdx.all (fun rp => rp.1.all (fun q => decide (q ≠ rp.2) && (l.getD q []).contains rp.2)))
      = true) : GoodNgbs n l := by
  rw [List.all_eq_true] at h1 h2
  have key : ∀ p q, Ngb l p q → q ≠ p ∧ Ngb l q p := by
    rintro p q ⟨row, hr, hq⟩
    have hm : (row, p) ∈ l.zipIdx := by
      rw [List.mem_zipIdx_iff_getElem?]
      exact hr
    have := h2 _ hm
    rw [List.all_eq_true] at this
    have := this q hq
    simp only [Bool.and_eq_true, decide_eq_true_eq, List.contains_iff_mem] at this
    refine ⟨this.1, ?_⟩
    rw [List.getD_eq_getElem?_getD] at this
    cases e : l[q]? with
    | none => rw [e] at this; simp at this
    | some row' =>
      rw [e] at this
      exact ⟨row', e, this.2⟩
  refine ⟨hn, ?_, fun p q h => (key p q h).2, fun p h => (key p p h).1 rfl⟩
  intro row hr
  simpa using h1 row hr

/-- The bipyramid fulfils the hypotheses and has its pair of poles for only 1551 pair. -/
example : GoodNgbs 7 bipyramid ∧ get1551pairs bipyramid = .ok [⟨0, 1⟩] :=
  ⟨good_of_check rfl (by decide +kernel) (by decide +kernel), by decide +kernel⟩

/-- `is_ring` tells that each particle has two neighbours in the list. For lists of three or five
particles this is a ring (see C86_1551 and C87_2331). -/
theorem C86_is_ring (h : GoodNgbs n ngbs) (l : List Nat) (hl : l.Pairwise (· < ·)) (hn : ∀ c ∈ l, c < n) :
    ∃ b, isRing ngbs l = .ok b ∧ (b = true ↔ ∀ c ∈ l, ∃ a b, a ∈ l ∧ b ∈ l ∧ a ≠ b ∧ Ngb ngbs c a ∧
      Ngb ngbs c b ∧ ∀ d ∈ l, Ngb ngbs c d → d = a ∨ d = b) :=
  isRing_ok h hl hn

/-- Two separated triangles are told to be a ring. -/
theorem C86_two_rings_counterexample :
    isRing [[1, 2], [0, 2], [0, 1], [4, 5], [3, 5], [3, 4]] [0, 1, 2, 3, 4, 5] = .ok true ∧
    GoodNgbs 6 [[1, 2], [0, 2], [0, 1], [4, 5], [3, 5], [3, 4]] ∧
    ∀ a ∈ [0, 1, 2], ∀ b ∈ [3, 4, 5], ¬ Ngb [[1, 2], [0, 2], [0, 1], [4, 5], [3, 5], [3, 4]] a b := by
  refine ⟨by decide +kernel, good_of_check rfl (by decide +kernel) (by decide +kernel), ?_⟩
  have : ∀ a ∈ [0, 1, 2], ∀ b ∈ [3, 4, 5],
      b ∉ rowOf [[1, 2], [0, 2], [0, 1], [4, 5], [3, 5], [3, 4]] a := by decide +kernel
  intro a ha b hb hn
  exact this a ha b hb (mem_rowOf.2 hn)

/-! ## C87 -/

/-- The common neighbours are exactly three distinct particles, linked to each other. -/
def Triangle (ngbs : NgbList) (p q : Nat) : Prop :=
  ∃ a b c, a ≠ b ∧ b ≠ c ∧ a ≠ c ∧ (∀ x, (Ngb ngbs p x ∧ Ngb ngbs q x) ↔ x = a ∨ x = b ∨ x = c) ∧
    Ngb ngbs a b ∧ Ngb ngbs b c ∧ Ngb ngbs a c

theorem triangle_iff (h : GoodNgbs n ngbs) {p q : Nat} : RingPair ngbs 3 p q ↔ Triangle ngbs p q := by
  constructor
  · rintro ⟨hl, htwo⟩
    obtain ⟨a, b, c, e⟩ := List.length_eq_three.1 hl
    have hnd := common_nodup h p q
    have hmem : ∀ x, (Ngb ngbs p x ∧ Ngb ngbs q x) ↔ x = a ∨ x = b ∨ x = c := by
      intro x
      rw [← mem_common' h, e]
      simp
    rw [e] at hnd htwo
    simp only [List.nodup_cons, List.mem_cons, List.not_mem_nil, or_false, not_or] at hnd
    obtain ⟨⟨hab, hac⟩, hbc, _⟩ := hnd
    -- all the others are neighbours
    have key : ∀ x ∈ [a, b, c], ∀ y ∈ [a, b, c], x ≠ y → Ngb ngbs x y := by
      intro x hx y hy hxy
      obtain ⟨u, v, hu, hv, huv, nu, nv, _⟩ := htwo x hx
      have hux : u ≠ x := fun e => h.irrefl x (e ▸ nu)
      have hvx : v ≠ x := fun e => h.irrefl x (e ▸ nv)
      have : y = u ∨ y = v := by
        simp only [List.mem_cons, List.not_mem_nil, or_false] at hx hy hu hv
        rcases hx with rfl | rfl | rfl <;> rcases hy with rfl | rfl | rfl <;>
          rcases hu with rfl | rfl | rfl <;> rcases hv with rfl | rfl | rfl <;> simp_all
      rcases this with rfl | rfl
      · exact nu
      · exact nv
    exact ⟨a, b, c, hab, hbc, hac, hmem, key a (by simp) b (by simp) hab, key b (by simp) c (by simp) hbc,
      key a (by simp) c (by simp) hac⟩
  · rintro ⟨a, b, c, hab, hbc, hac, hmem, nab, nbc, nac⟩
    have hp : (common ngbs p q).Perm [a, b, c] := by
      rw [List.perm_ext_iff_of_nodup (common_nodup h p q) (by simp [hab, hbc, hac])]
      intro x
      rw [mem_common' h, hmem]
      simp
    have hm : ∀ x, x ∈ common ngbs p q ↔ x = a ∨ x = b ∨ x = c := by
      intro x
      rw [mem_common' h, hmem]
    refine ⟨by rw [hp.length_eq]; rfl, ?_⟩
    intro x hx
    rcases (hm x).1 hx with rfl | rfl | rfl
    · refine ⟨b, c, (hm b).2 (by simp), (hm c).2 (by simp), hbc, nab, nac, ?_⟩
      intro d hd hn
      rcases (hm d).1 hd with rfl | rfl | rfl
      · exact absurd hn (h.irrefl _)
      · simp
      · simp
    · refine ⟨a, c, (hm a).2 (by simp), (hm c).2 (by simp), hac, h.symm _ _ nab, nbc, ?_⟩
      intro d hd hn
      rcases (hm d).1 hd with rfl | rfl | rfl
      · simp
      · exact absurd hn (h.irrefl _)
      · simp
    · refine ⟨a, b, (hm a).2 (by simp), (hm b).2 (by simp), hab, h.symm _ _ nac, h.symm _ _ nbc, ?_⟩
      intro d hd hn
      rcases (hm d).1 hd with rfl | rfl | rfl
      · simp
      · simp
      · exact absurd hn (h.irrefl _)

/-- `get2331pairs` gives exactly the pairs that are not linked and of which the common neighbours are
three particles linked to each other. -/
theorem C87_2331 (h : GoodNgbs n ngbs) : ∃ ret, get2331pairs ngbs = .ok ret ∧ IsBondSet ret ∧
    ∀ b : Bond, b ∈ ret ↔ b.low < b.high ∧ ¬ Ngb ngbs b.low b.high ∧ Triangle ngbs b.low b.high := by
  obtain ⟨ret, e, hs, hm⟩ := outer_loop (ret := []) (f := fun (ret : List Bond) (p : Nat) => do
    let row ← getR ngbs p
    let second ← secondNgb ngbs row
    let notFirst := setDifference second row
    (fromLowerBound notFirst (p + 1)).foldlM (fun (ret : List Bond) (q : Nat) => do
      let rowq ← getR ngbs q
      insertRing ngbs 3 p q (setIntersection row rowq) ret) ret)
    (P := fun p q => (p < q ∧ p < n ∧ ¬ Ngb ngbs p q ∧ ∃ c, Ngb ngbs p c ∧ Ngb ngbs c q) ∧
      RingPair ngbs 3 p q) (List.range n) (by
      intro p hp ret hs
      rw [List.mem_range] at hp
      rw [getR_rowOf h hp, ok_bind]
      obtain ⟨l, el, hl, hml⟩ := secondNgb_ok h p
      rw [el, ok_bind]
      have hsd : (setDifference l (rowOf ngbs p)).Pairwise (· < ·) :=
        hl.sublist (setDifferenceAux_sublist _ _ _)
      have hmd : ∀ q, q ∈ fromLowerBound (setDifference l (rowOf ngbs p)) (p + 1) ↔
          (p < q ∧ p < n ∧ ¬ Ngb ngbs p q ∧ ∃ c, Ngb ngbs p c ∧ Ngb ngbs c q) := by
        intro q
        rw [mem_fromLowerBound hsd]
        unfold setDifference
        rw [mem_setDifferenceAux _ _ _ le_rfl hl (h.row_sorted p), hml, mem_rowOf]
        constructor
        · rintro ⟨⟨h1, h2⟩, h3⟩
          exact ⟨h3, hp, h2, h1⟩
        · rintro ⟨h1, _, h2, h3⟩
          exact ⟨⟨h3, h2⟩, h1⟩
      obtain ⟨ret', e, hs', hm⟩ := inner_loop (p := p) (P := fun q => RingPair ngbs 3 p q)
        (fromLowerBound (setDifference l (rowOf ngbs p)) (p + 1))
        (f := fun (ret : List Bond) (q : Nat) => do
          let rowq ← getR ngbs q
          insertRing ngbs 3 p q (setIntersection (rowOf ngbs p) rowq) ret) (by
          intro q hq ret hs
          obtain ⟨_, _, _, c, _, hc⟩ := (hmd q).1 hq
          have hqn := (h.lt (mem_rowOf.2 hc)).2
          rw [getR_rowOf h hqn, ok_bind]
          exact insertRing_ok h 3 p q hs) hs
      refine ⟨ret', e, hs', ?_⟩
      intro b
      rw [hm]
      constructor
      · rintro (h | ⟨q, hq, hr, hb⟩)
        · exact Or.inl h
        · exact Or.inr ⟨q, ⟨(hmd q).1 hq, hr⟩, hb⟩
      · rintro (h | ⟨q, ⟨hq, hr⟩, hb⟩)
        · exact Or.inl h
        · exact Or.inr ⟨q, (hmd q).2 hq, hr, hb⟩) List.Pairwise.nil
  refine ⟨ret, ?_, hs, ?_⟩
  · unfold get2331pairs
    rw [h.len]
    exact e
  · intro b
    rw [hm, mem_pairs (P := fun p q => (p < q ∧ p < n ∧ ¬ Ngb ngbs p q ∧ ∃ c, Ngb ngbs p c ∧ Ngb ngbs c q) ∧
      RingPair ngbs 3 p q) (by
      rintro p q ⟨⟨h1, h2, _⟩, _⟩
      exact ⟨h1, h2⟩)]
    constructor
    · rintro ⟨⟨h1, _, h2, _⟩, h3⟩
      exact ⟨h1, h2, (triangle_iff h).1 h3⟩
    · rintro ⟨h1, h2, h3⟩
      refine ⟨⟨h1, ?_, h2, ?_⟩, (triangle_iff h).2 h3⟩
      · obtain ⟨a, _, _, _, _, _, hmem, _⟩ := h3
        have := ((hmem a).2 (Or.inl rfl)).1
        exact (h.lt (mem_rowOf.2 this)).1
      · obtain ⟨a, _, _, _, _, _, hmem, _⟩ := h3
        have := (hmem a).2 (Or.inl rfl)
        exact ⟨a, this.1, h.symm _ _ this.2⟩

/-- Two tetrahedra sharing a face. -/
def twoTetrahedra : NgbList := [[1, 2, 3], [0, 2, 3, 4], [0, 1, 3, 4], [0, 1, 2, 4], [1, 2, 3]]

theorem good_twoTetrahedra : GoodNgbs 5 twoTetrahedra :=
  good_of_check rfl (by decide +kernel) (by decide +kernel)

/-- The two opposite vertices are a 2331 pair. -/
example : ∃ ret, get2331pairs twoTetrahedra = .ok ret ∧ (⟨0, 4⟩ : Bond) ∈ ret := by
  obtain ⟨ret, e, _, hm⟩ := C87_2331 good_twoTetrahedra
  have hc : common twoTetrahedra 0 4 = [1, 2, 3] := by decide +kernel
  have hn : ∀ p q, q ∈ rowOf twoTetrahedra p → Ngb twoTetrahedra p q := fun p q h => mem_rowOf.1 h
  refine ⟨ret, e, (hm _).2 ⟨by decide, ?_, 1, 2, 3, by decide, by decide, by decide, ?_,
    hn _ _ (by decide +kernel), hn _ _ (by decide +kernel), hn _ _ (by decide +kernel)⟩⟩
  · intro h
    have h' := mem_rowOf.2 h
    revert h'
    decide +kernel
  · intro x
    rw [← mem_common' good_twoTetrahedra]
    show x ∈ common twoTetrahedra 0 4 ↔ _
    rw [hc]
    simp

/-- No pair is both. -/
theorem C87_disjoint (h : GoodNgbs n ngbs) (r r' : List Bond) (e : get1551pairs ngbs = .ok r)
    (e' : get2331pairs ngbs = .ok r') (b : Bond) : ¬ (b ∈ r ∧ b ∈ r') := by
  obtain ⟨r1, e1, _, h1⟩ := C86_1551 h
  obtain ⟨r2, e2, _, h2⟩ := C87_2331 h
  rw [e] at e1
  rw [e'] at e2
  cases e1
  cases e2
  rintro ⟨hb, hb'⟩
  exact ((h2 b).1 hb').2.1 ((h1 b).1 hb).2.1

/-! ## C88 -/

theorem secondShell_ok (h : GoodNgbs n ngbs) : ∃ ret, getSecondShell ngbs = .ok ret ∧ IsBondSet ret ∧
    ∀ b : Bond, b ∈ ret ↔ b.low < b.high ∧ ∃ c, Ngb ngbs b.low c ∧ Ngb ngbs c b.high := by
  obtain ⟨ret, e, hs, hm⟩ := outer_loop (ret := []) (f := fun (ret : List Bond) (p : Nat) => do
    let row ← getR ngbs p
    let second ← secondNgb ngbs row
    pure ((fromLowerBound second (p + 1)).foldl
      (fun (ret : List Bond) (q : Nat) => bondInsert (Bond.mk' p q) ret) ret))
    (P := fun p q => p < q ∧ p < n ∧ ∃ c, Ngb ngbs p c ∧ Ngb ngbs c q) (List.range n) (by
      intro p hp ret hs
      rw [List.mem_range] at hp
      rw [getR_rowOf h hp, ok_bind]
      obtain ⟨l, el, hl, hml⟩ := secondNgb_ok h p
      rw [el, ok_bind]
      refine ⟨_, rfl, (foldl_bondInsert p _ ret hs).1, ?_⟩
      intro b
      rw [(foldl_bondInsert p _ ret hs).2]
      constructor
      · rintro (h | ⟨q, hq, hb⟩)
        · exact Or.inl h
        · rw [mem_fromLowerBound hl, hml] at hq
          exact Or.inr ⟨q, ⟨hq.2, hp, hq.1⟩, hb⟩
      · rintro (h | ⟨q, ⟨h1, _, h2⟩, hb⟩)
        · exact Or.inl h
        · refine Or.inr ⟨q, ?_, hb⟩
          rw [mem_fromLowerBound hl, hml]
          exact ⟨h2, h1⟩) List.Pairwise.nil
  refine ⟨ret, ?_, hs, ?_⟩
  · unfold getSecondShell
    rw [h.len]
    exact e
  · intro b
    rw [hm, mem_pairs (P := fun p q => p < q ∧ p < n ∧ ∃ c, Ngb ngbs p c ∧ Ngb ngbs c q) (by
      rintro p q ⟨h1, h2, _⟩
      exact ⟨h1, h2⟩)]
    constructor
    · rintro ⟨h1, _, h2⟩
      exact ⟨h1, h2⟩
    · rintro ⟨h1, c, h2, h3⟩
      exact ⟨h1, (h.lt (mem_rowOf.2 h2)).1, c, h2, h3⟩

/-- Partial: the pairs given are those that have a common neighbour. Missing from what the comment
announces (the neighbours and their neighbours): the neighbours without any common neighbour, see
`C88_missing_counterexample`. When all the bonds have a common neighbour the set is the announced one. -/
theorem C88_second_shell_partial (h : GoodNgbs n ngbs) : ∃ ret, getSecondShell ngbs = .ok ret ∧
    IsBondSet ret ∧
    (∀ b : Bond, b ∈ ret ↔ b.low < b.high ∧ ∃ c, Ngb ngbs b.low c ∧ Ngb ngbs c b.high) ∧
    ((∀ p q, Ngb ngbs p q → ∃ c, Ngb ngbs p c ∧ Ngb ngbs c q) → ∀ b : Bond, b ∈ ret ↔ b.low < b.high ∧
      (Ngb ngbs b.low b.high ∨ ∃ c, Ngb ngbs b.low c ∧ Ngb ngbs c b.high)) := by
  obtain ⟨ret, e, hs, hm⟩ := secondShell_ok h
  refine ⟨ret, e, hs, hm, ?_⟩
  intro hc b
  rw [hm]
  constructor
  · rintro ⟨h1, h2⟩
    exact ⟨h1, Or.inr h2⟩
  · rintro ⟨h1, h2 | h2⟩
    · exact ⟨h1, hc _ _ h2⟩
    · exact ⟨h1, h2⟩

/-- In the two tetrahedra each bond has a common neighbour, and the opposite vertices are given. -/
example : ∃ ret, getSecondShell twoTetrahedra = .ok ret ∧ (⟨0, 4⟩ : Bond) ∈ ret ∧ (⟨0, 1⟩ : Bond) ∈ ret := by
  obtain ⟨ret, e, _, hm, _⟩ := C88_second_shell_partial good_twoTetrahedra
  have hn : ∀ p q, q ∈ rowOf twoTetrahedra p → Ngb twoTetrahedra p q := fun p q h => mem_rowOf.1 h
  exact ⟨ret, e, (hm _).2 ⟨by decide, 1, hn _ _ (by decide +kernel), hn _ _ (by decide +kernel)⟩,
    (hm _).2 ⟨by decide, 2, hn _ _ (by decide +kernel), hn _ _ (by decide +kernel)⟩⟩

/-- Any bond without common neighbour is missing. -/
theorem C88_missing_counterexample (h : GoodNgbs n ngbs) (p q : Nat) (_hpq : p < q)
    (_hb : Ngb ngbs p q) (hc : ∀ c, ¬ (Ngb ngbs p c ∧ Ngb ngbs c q)) (ret : List Bond)
    (e : getSecondShell ngbs = .ok ret) : (⟨p, q⟩ : Bond) ∉ ret := by
  obtain ⟨r, e', _, hm⟩ := secondShell_ok h
  rw [e] at e'
  cases e'
  intro hb
  obtain ⟨_, c, hc'⟩ := (hm _).1 hb
  exact hc c hc'

/-- Two linked particles alone: their bond is not given. -/
example : ∃ ret, getSecondShell [[1], [0]] = .ok ret ∧ (⟨0, 1⟩ : Bond) ∉ ret := by
  have hg : GoodNgbs 2 [[1], [0]] := good_of_check rfl (by decide +kernel) (by decide +kernel)
  obtain ⟨ret, e, _⟩ := secondShell_ok hg
  refine ⟨ret, e, C88_missing_counterexample hg 0 1 (by decide) (mem_rowOf.1 (by decide +kernel)) ?_ ret e⟩
  rintro c ⟨h1, h2⟩
  have h1 : c ∈ [1] := mem_rowOf.2 h1
  have : c = 1 := by simpa using h1
  subst this
  exact hg.irrefl 1 h2

/-! ## C89 -/

/-- The clusters of `getSP5c` in their order. -/
def sp5cList (ngbs : NgbList) : List (List Nat) :=
  (List.range ngbs.length).flatMap (fun p => (up ngbs p).flatMap (fun q =>
    if (common ngbs p q).length = 5 then [p :: q :: common ngbs p q] else []))

theorem sp5c_ok (h : GoodNgbs n ngbs) (acc : List (List Nat)) :
    getSP5c ngbs acc = .ok (acc ++ sp5cList ngbs) := by
  unfold getSP5c sp5cList
  rw [h.len]
  have inner : ∀ (p : Nat) (qs : List Nat) (acc : List (List Nat)), (∀ q ∈ qs, q < n) →
      qs.foldlM (fun (acc : List (List Nat)) (q : Nat) => do
        let rowq ← getR ngbs q
        let common := p :: q :: setIntersection (rowOf ngbs p) rowq
        pure (if common.length = 7 then acc ++ [common] else acc)) acc
      = .ok (acc ++ qs.flatMap (fun q =>
          if (common ngbs p q).length = 5 then [p :: q :: common ngbs p q] else [])) := by
    intro p qs
    induction qs with
    | nil => intro acc _; simp
    | cons q qs ih =>
      intro acc hq
      rw [List.foldlM_cons]
      beta_reduce
      rw [getR_rowOf h (hq q (by simp)), ok_bind, pure_eq_ok, ok_bind,
        ih _ (fun x hx => hq x (by simp [hx]))]
      refine congrArg Except.ok ?_
      have : setIntersection (rowOf ngbs p) (rowOf ngbs q) = common ngbs p q := rfl
      rw [this, List.flatMap_cons]
      by_cases h5 : (common ngbs p q).length = 5
      · simp [h5]
      · have : ¬ ((p :: q :: common ngbs p q).length = 7) := by simp; omega
        rw [if_neg this, if_neg h5]
        simp
  have outer : ∀ (ps : List Nat) (acc : List (List Nat)), (∀ p ∈ ps, p < n) →
      ps.foldlM (fun (acc : List (List Nat)) (p : Nat) => do
        let row ← getR ngbs p
        (fromLowerBound row (p + 1)).foldlM (fun (acc : List (List Nat)) (q : Nat) => do
          let rowq ← getR ngbs q
          let common := p :: q :: setIntersection row rowq
          pure (if common.length = 7 then acc ++ [common] else acc)) acc) acc
      = .ok (acc ++ ps.flatMap (fun p => (up ngbs p).flatMap (fun q =>
          if (common ngbs p q).length = 5 then [p :: q :: common ngbs p q] else []))) := by
    intro ps
    induction ps with
    | nil => intro acc _; simp
    | cons p ps ih =>
      intro acc hp
      rw [List.foldlM_cons]
      beta_reduce
      rw [getR_rowOf h (hp p (by simp)), ok_bind, inner p _ acc (by
        intro q hq
        exact (h.lt ((mem_up h).1 hq).1).2), ok_bind, ih _ (fun x hx => hp x (by simp [hx])),
        List.flatMap_cons, List.append_assoc]
      rfl
  exact outer _ _ (fun p hp => List.mem_range.1 hp)

/-- What `getSP5c` appends: for each linked pair with exactly five common neighbours, the two particles
in increasing order followed by the five common neighbours in increasing order; once per pair. -/
theorem C89_sp5c (h : GoodNgbs n ngbs) (acc : List (List Nat)) : ∃ l, getSP5c ngbs acc = .ok (acc ++ l) ∧
    l.Nodup ∧ ∀ s, s ∈ l ↔ ∃ p q c, s = p :: q :: c ∧ p < q ∧ Ngb ngbs p q ∧ c.length = 5 ∧
      c.Pairwise (· < ·) ∧ ∀ x, x ∈ c ↔ Ngb ngbs p x ∧ Ngb ngbs q x := by
  refine ⟨sp5cList ngbs, sp5c_ok h acc, ?_, ?_⟩
  · unfold sp5cList
    have hone : ∀ p q, (if (common ngbs p q).length = 5 then [p :: q :: common ngbs p q] else []).Nodup := by
      intro p q
      split <;> simp
    rw [List.nodup_flatMap]
    constructor
    · intro p _
      rw [List.nodup_flatMap]
      refine ⟨fun q _ => hone p q, ?_⟩
      have hup : (up ngbs p).Nodup := by
        unfold up fromLowerBound
        exact (h.row_nodup p).sublist (List.drop_sublist _ _)
      refine hup.imp ?_
      intro a b hab s hs hs'
      beta_reduce at hs hs'
      split at hs <;> split at hs' <;> simp at hs hs'
      rw [hs] at hs'
      simp at hs'
      exact hab hs'.1
    · refine List.nodup_range.imp ?_
      intro a b hab s hs hs'
      obtain ⟨x, _, hx⟩ := List.mem_flatMap.1 hs
      obtain ⟨y, _, hy⟩ := List.mem_flatMap.1 hs'
      split at hx <;> split at hy <;> simp at hx hy
      rw [hx] at hy
      simp at hy
      exact hab hy.1
  · intro s
    unfold sp5cList
    rw [List.mem_flatMap]
    constructor
    · rintro ⟨p, _, hs⟩
      obtain ⟨q, hq, hs⟩ := List.mem_flatMap.1 hs
      split at hs
      · rename_i h5
        have hs : s = p :: q :: common ngbs p q := by simpa using hs
        have := (mem_up h).1 hq
        exact ⟨p, q, common ngbs p q, hs, this.2, mem_rowOf.1 this.1, h5, common_sorted h p q,
          fun x => mem_common' h⟩
      · simp at hs
    · rintro ⟨p, q, c, rfl, hpq, hn, h5, hc, hm⟩
      have hcc : c = common ngbs p q := by
        have hp : c.Perm (common ngbs p q) := by
          rw [List.perm_ext_iff_of_nodup (hc.imp (fun h => Nat.ne_of_lt h)) (common_nodup h p q)]
          intro x
          rw [hm, mem_common' h]
        exact hp.eq_of_pairwise (fun a b _ _ h1 h2 => by omega) hc (common_sorted h p q)
      subst hcc
      refine ⟨p, List.mem_range.2 (by rw [h.len]; exact (h.lt (mem_rowOf.2 hn)).1), ?_⟩
      rw [List.mem_flatMap]
      refine ⟨q, (mem_up h).2 ⟨mem_rowOf.2 hn, hpq⟩, ?_⟩
      rw [if_pos h5]
      simp

/-- The bipyramid is a SP5c cluster. -/
example : getSP5c bipyramid [] = .ok [[0, 1, 2, 3, 4, 5, 6]] := by decide +kernel

/-- Partial: the 1551 pairs all give a SP5c cluster. Missing: the converse, announced by the comment,
which is false because the ring is not tested (`C89_no_ring_counterexample`). -/
theorem C89_1551_partial (h : GoodNgbs n ngbs) (r : List Bond) (l : List (List Nat))
    (e : get1551pairs ngbs = .ok r) (e' : getSP5c ngbs [] = .ok l) (b : Bond) (hb : b ∈ r) :
    ∃ c, b.low :: b.high :: c ∈ l := by
  obtain ⟨r1, e1, _, h1⟩ := C86_1551 h
  rw [e] at e1
  cases e1
  obtain ⟨l1, e2, _, h2⟩ := C89_sp5c h []
  rw [e'] at e2
  cases e2
  obtain ⟨hlt, hn, hr⟩ := (h1 b).1 hb
  refine ⟨common ngbs b.low b.high, ?_⟩
  rw [List.nil_append, h2]
  exact ⟨_, _, _, rfl, hlt, hn, (ringPair_of h hr).1, common_sorted h _ _, fun x => mem_common' h⟩

/-- The bipyramid is both. -/
example : ∃ r l, get1551pairs bipyramid = .ok r ∧ getSP5c bipyramid [] = .ok l ∧
    (⟨0, 1⟩ : Bond) ∈ r :=
  ⟨[⟨0, 1⟩], [[0, 1, 2, 3, 4, 5, 6]], by decide +kernel, by decide +kernel, by decide +kernel⟩

/-- Two linked particles with five common neighbours that are not linked: a SP5c cluster for the code,
but not a 1551 pair. -/
theorem C89_no_ring_counterexample :
    GoodNgbs 7 [[1, 2, 3, 4, 5, 6], [0, 2, 3, 4, 5, 6], [0, 1], [0, 1], [0, 1], [0, 1], [0, 1]] ∧
    getSP5c [[1, 2, 3, 4, 5, 6], [0, 2, 3, 4, 5, 6], [0, 1], [0, 1], [0, 1], [0, 1], [0, 1]] []
      = .ok [[0, 1, 2, 3, 4, 5, 6]] ∧
    get1551pairs [[1, 2, 3, 4, 5, 6], [0, 2, 3, 4, 5, 6], [0, 1], [0, 1], [0, 1], [0, 1], [0, 1]]
      = .ok [] :=
  ⟨good_of_check rfl (by decide +kernel) (by decide +kernel), by decide +kernel, by decide +kernel⟩

end Structure
end Colloids
