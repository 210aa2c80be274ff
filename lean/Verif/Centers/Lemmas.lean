import Verif.Centers.Model
import Verif.CommonLemmas
import Verif.RStar.Props
import Mathlib.Algebra.Order.BigOperators.Group.Finset
import Mathlib.Algebra.Order.BigOperators.Ring.Finset
import Mathlib.Algebra.BigOperators.Ring.Finset
import Mathlib.Tactic.Linarith
import Mathlib.Tactic.Ring
import Mathlib.Tactic.Positivity

/-! # Helper lemmas for the removal of the overlaps -/

namespace Colloids
namespace Center
variable {d : Nat} {G : Type} [Field G] [LinearOrder G]

/-- Keep an element if it is `near` none of those already kept. -/
def greedyFrom {α : Type} (near : α → α → Bool) (acc : List α) (l : List α) : List α :=
  l.foldl (fun acc c => if acc.any (near c) then acc else acc ++ [c]) acc

theorem greedyFrom_cons {α : Type} (near : α → α → Bool) (acc : List α) (c : α) (l : List α) :
    greedyFrom near acc (c :: l) =
      greedyFrom near (if acc.any (near c) then acc else acc ++ [c]) l := rfl

theorem greedyFrom_congr {α : Type} {near near' : α → α → Bool} {l acc : List α}
    (h : ∀ c ∈ l, ∀ x ∈ acc ++ l, near c x = near' c x) :
    greedyFrom near acc l = greedyFrom near' acc l := by
  induction l generalizing acc with
  | nil => rfl
  | cons c l ih =>
    rw [greedyFrom_cons, greedyFrom_cons]
    have : acc.any (near c) = acc.any (near' c) := by
      rw [Bool.eq_iff_iff, List.any_eq_true, List.any_eq_true]
      constructor
      · rintro ⟨x, hx, hn⟩; exact ⟨x, hx, by rw [← h c (by simp) x (by simp [hx])]; exact hn⟩
      · rintro ⟨x, hx, hn⟩; exact ⟨x, hx, by rw [h c (by simp) x (by simp [hx])]; exact hn⟩
    rw [this]
    split
    · exact ih (fun c' hc' x hx => h c' (by simp [hc']) x (by
        rcases List.mem_append.1 hx with hx | hx <;> simp [hx]))
    · exact ih (fun c' hc' x hx => h c' (by simp [hc']) x (by simpa using hx))

theorem greedyFrom_spec {α : Type} (near : α → α → Bool) : ∀ (l acc : List α),
    ∃ added, greedyFrom near acc l = acc ++ added ∧ added.Sublist l ∧
      (acc.Pairwise (fun x c => near c x = false) →
        (acc ++ added).Pairwise (fun x c => near c x = false)) ∧
      (∀ l1 c l2, l = l1 ++ c :: l2 → c ∈ added ∨ ∃ x, (x ∈ acc ∨ x ∈ l1) ∧ x ∈ acc ++ added ∧
        near c x = true) := by
  intro l
  induction l with
  | nil => intro acc; exact ⟨[], by simp [greedyFrom], by simp, by simp, by simp⟩
  | cons c l ih =>
    intro acc
    rw [greedyFrom_cons]
    by_cases hn : acc.any (near c) = true
    · rw [if_pos hn]
      obtain ⟨added, h1, h2, h3, h4⟩ := ih acc
      refine ⟨added, h1, h2.cons c, h3, ?_⟩
      intro l1 c' l2 hl
      cases l1 with
      | nil =>
        simp only [List.nil_append, List.cons.injEq] at hl
        obtain ⟨rfl, rfl⟩ := hl
        obtain ⟨x, hx, hnx⟩ := List.any_eq_true.1 hn
        exact Or.inr ⟨x, Or.inl hx, by simp [hx], hnx⟩
      | cons a l1 =>
        simp only [List.cons_append, List.cons.injEq] at hl
        obtain ⟨rfl, rfl⟩ := hl
        rcases h4 l1 c' l2 rfl with h | ⟨x, hx, h⟩
        · exact Or.inl h
        · exact Or.inr ⟨x, by rcases hx with hx | hx <;> simp [hx], h⟩
    · rw [if_neg hn]
      obtain ⟨added, h1, h2, h3, h4⟩ := ih (acc ++ [c])
      refine ⟨c :: added, by rw [h1]; simp, h2.cons_cons c, ?_, ?_⟩
      · intro hp
        have := h3 (by
          rw [List.pairwise_append]
          refine ⟨hp, by simp, ?_⟩
          intro x hx c' hc'
          rw [List.mem_singleton] at hc'
          subst hc'
          have : ¬ near c' x = true := fun h => hn (List.any_eq_true.2 ⟨x, hx, h⟩)
          simpa using this)
        simpa using this
      · intro l1 c' l2 hl
        cases l1 with
        | nil =>
          simp only [List.nil_append, List.cons.injEq] at hl
          obtain ⟨rfl, rfl⟩ := hl
          exact Or.inl (by simp)
        | cons a l1 =>
          simp only [List.cons_append, List.cons.injEq] at hl
          obtain ⟨rfl, rfl⟩ := hl
          rcases h4 l1 c' l2 rfl with h | ⟨x, hx, hm, h⟩
          · exact Or.inl (by simp [h])
          · refine Or.inr ⟨x, ?_, by simpa using hm, h⟩
            rcases hx with hx | hx
            · rcases List.mem_append.1 hx with hx | hx
              · exact Or.inl hx
              · rw [List.mem_singleton] at hx; subst hx; exact Or.inr (by simp)
            · exact Or.inr (by simp [hx])

/-- The leaves of the tree made of the kept centers. -/
def leavesOf (tol : G) (f : List (Center d G)) : List (Leaf d G Nat) :=
  f.zipIdx.map (fun ci => ⟨ci.1.getBB tol, ci.2⟩)

omit [Field G] [LinearOrder G] in
theorem anyClose_ok (test : Center d G → Center d G → Bool) (f : List (Center d G)) (c : Center d G) :
    ∀ (qs : List Nat), (∀ q ∈ qs, q < f.length) →
      anyClose test f c qs = .ok (qs.any (fun q => (f[q]?).any (test c))) := by
  intro qs
  induction qs with
  | nil => intro _; rfl
  | cons q qs ih =>
    intro h
    have hq := h q (by simp)
    unfold anyClose
    rw [getR_of_lt hq, ok_bind, ih (fun q hq => h q (by simp [hq]))]
    simp only [List.any_cons, List.getElem?_eq_getElem hq, Option.any_some]
    cases test c f[q] <;> simp

/-- Boxes overlap and the test holds. -/
def near (tol : G) (test : Center d G → Center d G → Bool) (c x : Center d G) : Bool :=
  (c.getBB tol).overlaps (x.getBB tol) && test c x

section
variable [IsStrictOrderedRing G]

theorem query_any {P : RParams G} {H : Heur d G} (hP : P.Valid) (hH : H.Valid P) {tol : G}
    {test : Center d G → Center d G → Bool} {f : List (Center d G)} {t : RTree d G Nat}
    (ht : RTree.Reachable P H false t) (hc : t.content.Perm (leavesOf tol f)) (c : Center d G) :
    (∀ q ∈ (t.queryOverlapping (c.getBB tol)).map (·.val), q < f.length) ∧
    ((t.queryOverlapping (c.getBB tol)).map (·.val)).any (fun q => (f[q]?).any (test c)) =
      f.any (near tol test c) := by
  rw [C13_overlapping hP hH ht]
  constructor
  · intro q hq
    obtain ⟨l, hl, rfl⟩ := List.mem_map.1 hq
    have := hc.mem_iff.1 (List.mem_filter.1 hl).1
    unfold leavesOf at this
    obtain ⟨⟨x, i⟩, hx, rfl⟩ := List.mem_map.1 this
    have := List.mk_mem_zipIdx_iff_getElem?.1 hx
    exact (List.getElem?_eq_some_iff.1 this).1
  · rw [Bool.eq_iff_iff, List.any_eq_true, List.any_eq_true]
    constructor
    · rintro ⟨q, hq, h⟩
      obtain ⟨l, hl, rfl⟩ := List.mem_map.1 hq
      obtain ⟨hl1, hl2⟩ := List.mem_filter.1 hl
      have := hc.mem_iff.1 hl1
      unfold leavesOf at this
      obtain ⟨⟨x, i⟩, hx, rfl⟩ := List.mem_map.1 this
      have hx := List.mk_mem_zipIdx_iff_getElem?.1 hx
      refine ⟨x, List.mem_of_getElem? hx, ?_⟩
      dsimp only at h hl2
      rw [hx, Option.any_some] at h
      unfold near
      rw [hl2, h]
      rfl
    · rintro ⟨x, hx, h⟩
      obtain ⟨i, hi⟩ := List.mem_iff_getElem?.1 hx
      unfold near at h
      rw [Bool.and_eq_true] at h
      refine ⟨i, List.mem_map.2 ⟨⟨x.getBB tol, i⟩, ?_, rfl⟩, by rw [hi]; exact h.2⟩
      rw [List.mem_filter]
      refine ⟨hc.mem_iff.2 ?_, h.1⟩
      unfold leavesOf
      exact List.mem_map.2 ⟨(x, i), List.mk_mem_zipIdx_iff_getElem?.2 hi, rfl⟩

theorem sieve_ok {P : RParams G} {H : Heur d G} (hP : P.Valid) (hH : H.Valid P) {tol : G}
    {test : Center d G → Center d G → Bool} : ∀ (l f : List (Center d G)) (t : RTree d G Nat),
    RTree.Reachable P H false t → t.content.Perm (leavesOf tol f) →
    ∃ t', l.foldlM (sieveStep P H tol test) (f, t) = .ok (greedyFrom (near tol test) f l, t') ∧
      RTree.Reachable P H false t' ∧
      t'.content.Perm (leavesOf tol (greedyFrom (near tol test) f l)) := by
  intro l
  induction l with
  | nil => intro f t h1 h2; exact ⟨t, rfl, h1, h2⟩
  | cons c l ih =>
    intro f t h1 h2
    rw [List.foldlM_cons, greedyFrom_cons]
    obtain ⟨q1, q2⟩ := query_any hP hH (test := test) h1 h2 c
    unfold sieveStep
    dsimp only
    rw [anyClose_ok _ _ _ _ q1, q2, ok_bind]
    by_cases hn : f.any (near tol test c) = true
    · rw [if_pos hn, if_pos hn, pure_eq_ok, ok_bind]
      exact ih f t h1 h2
    · rw [if_neg hn, if_neg hn]
      obtain ⟨t', k1, k2, -⟩ := C12_step hP hH h1 f.length (c.getBB tol)
      rw [k1, ok_bind, pure_eq_ok, ok_bind]
      apply ih
      · exact RTree.Reachable.insert _ _ h1 k1
      · refine k2.trans ?_
        unfold leavesOf at h2 ⊢
        rw [List.zipIdx_append, List.map_append]
        refine (List.Perm.cons _ h2).trans ?_
        simpa using (List.perm_append_singleton _ _).symm

theorem sqDiff_nonneg (a b : Center d G) : 0 ≤ sqDiff a b :=
  Finset.sum_nonneg (fun _ _ => sq_nonneg _)

theorem sq_le_sqDiff (a b : Center d G) (i : Fin d) :
    (a.coords i - b.coords i) ^ 2 ≤ sqDiff a b :=
  Finset.single_le_sum (f := fun i => (a.coords i - b.coords i) ^ 2) (fun _ _ => sq_nonneg _)
    (Finset.mem_univ i)

theorem sqDiff_le (a b : Center d G) {m : G} (h : ∀ i, |a.coords i - b.coords i| ≤ m) :
    sqDiff a b ≤ d * m ^ 2 := by
  unfold sqDiff
  have : ∀ i ∈ Finset.univ, (a.coords i - b.coords i) ^ 2 ≤ m ^ 2 := fun i _ =>
    sq_le_sq' (by have := abs_le.1 (h i); linarith) (abs_le.1 (h i)).2
  calc _ ≤ ∑ _i : Fin d, m ^ 2 := Finset.sum_le_sum this
    _ = d * m ^ 2 := by simp

theorem sqDiff_comm (a b : Center d G) : sqDiff a b = sqDiff b a := by
  unfold sqDiff; exact Finset.sum_congr rfl (fun i _ => by ring)

theorem box_iff (tol : G) (c x : Center d G) :
    (c.getBB tol).overlaps (x.getBB tol) = true ↔
      ∀ i, |c.coords i - x.coords i| < (c.r + x.r) * tol := by
  rw [Box.overlaps_iff]
  apply forall_congr'
  intro i
  simp only [getBB]
  rw [abs_lt]
  constructor
  · rintro ⟨h1, h2⟩; constructor <;> linarith
  · rintro ⟨h1, h2⟩; constructor <;> linarith

end

end Center
end Colloids
