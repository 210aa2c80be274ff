import Mathlib.Data.List.Nodup
import Verif.CommonLemmas
import Verif.Py.ClusterSizeModel

/-! # C255: sizes of the clusters of bonds -/

namespace Colloids
namespace Py
namespace ClusterSize

/-- Whether a chain of bonds links two particles. -/
def Linked (bonds : List (Nat × Nat)) : Nat → Nat → Prop := Relation.EqvGen fun a b => (a, b) ∈ bonds

/-- What networkx is asked: the nodes are the points and the ends of the bonds; each is in a component, once; a component is all that is linked to one of its nodes. -/
structure Components (n : Nat) (bonds : List (Nat × Nat)) (cc : List (List Nat)) : Prop where
  nodup : cc.flatten.Nodup
  mem : ∀ i, i ∈ cc.flatten ↔ i < n ∨ ∃ b ∈ bonds, i = b.1 ∨ i = b.2
  linked : ∀ c ∈ cc, ∀ i ∈ c, ∀ j, j ∈ c ↔ Linked bonds i j

theorem foldl_set_get (l : List Nat) (x : Nat) (out : List Nat) (i : Nat) (hi : i < out.length) :
    (l.foldl (fun o i => o.set i x) out)[i]? = some (if i ∈ l then x else out[i]) := by
  induction l generalizing out with
  | nil => simp [hi]
  | cons a l ih =>
    rw [List.foldl_cons, ih (out.set a x) (by rw [List.length_set]; exact hi), List.getElem_set]
    by_cases h1 : i ∈ l
    · rw [if_pos h1, if_pos (List.mem_cons_of_mem _ h1)]
    · rw [if_neg h1]
      by_cases h2 : a = i
      · rw [if_pos h2, if_pos (by rw [h2]; exact List.mem_cons_self)]
      · rw [if_neg h2, if_neg]
        intro h
        rcases List.mem_cons.1 h with h | h
        · exact h2 h.symm
        · exact h1 h

theorem foldl_set_length (l : List Nat) (x : Nat) (out : List Nat) : (l.foldl (fun o i => o.set i x) out).length = out.length := by
  induction l generalizing out with
  | nil => rfl
  | cons a l ih => rw [List.foldl_cons, ih, List.length_set]

theorem fold_ok (cc : List (List Nat)) (out : List Nat) (hlt : ∀ c ∈ cc, ∀ i ∈ c, i < out.length) (hd : cc.flatten.Nodup) :
    ∃ out', cc.foldlM setAll out = .ok out' ∧ out'.length = out.length ∧
      (∀ c ∈ cc, ∀ i ∈ c, out'[i]? = some c.length) ∧ ∀ i, i ∉ cc.flatten → out'[i]? = out[i]? := by
  induction cc generalizing out with
  | nil => exact ⟨out, rfl, rfl, fun c hc => absurd hc List.not_mem_nil, fun _ _ => rfl⟩
  | cons c cc ih =>
    rw [List.flatten_cons, List.nodup_append] at hd
    obtain ⟨_, hd2, hd3⟩ := hd
    have hs : setAll out c = .ok (c.foldl (fun o i => o.set i c.length) out) := by
      rw [setAll, if_pos]
      rw [List.all_eq_true]
      exact fun i hi => decide_eq_true (hlt c List.mem_cons_self i hi)
    have hl := foldl_set_length c c.length out
    obtain ⟨out', h1, h2, h3, h4⟩ := ih (c.foldl (fun o i => o.set i c.length) out)
      (fun c' hc' i hi => by rw [hl]; exact hlt c' (List.mem_cons_of_mem _ hc') i hi) hd2
    refine ⟨out', ?_, by rw [h2, hl], ?_, ?_⟩
    · rw [List.foldlM_cons, hs, ok_bind, h1]
    · intro c' hc' i hi
      rcases List.mem_cons.1 hc' with rfl | hc'
      · have hni : i ∉ cc.flatten := fun h => hd3 i hi i h rfl
        rw [h4 i hni, foldl_set_get _ _ _ _ (hlt c' List.mem_cons_self i hi), if_pos hi]
      · exact h3 c' hc' i hi
    · intro i hi
      rw [List.flatten_cons, List.mem_append] at hi
      rw [h4 i fun h => hi (Or.inr h)]
      by_cases hio : i < out.length
      · rw [foldl_set_get _ _ _ _ hio, if_neg fun h => hi (Or.inl h), List.getElem?_eq_getElem hio]
      · rw [List.getElem?_eq_none (by rw [hl]; omega), List.getElem?_eq_none (by omega)]

open Classical in
/-- C255. If the bonds are between points, the number of each point is how many points a chain of bonds links to it, itself included. -/
theorem C255_size_partial (n : Nat) (bonds : List (Nat × Nat)) (cc : List (List Nat)) (hcc : Components n bonds cc)
    (hb : ∀ b ∈ bonds, b.1 < n ∧ b.2 < n) :
    ∃ out, clustersize n cc = .ok out ∧ out.length = n ∧ ∀ i < n, out[i]? = some ((List.range n).filter fun j => decide (Linked bonds i j)).length := by
  have hmem : ∀ i, i ∈ cc.flatten ↔ i < n := by
    intro i
    rw [hcc.mem]
    constructor
    · rintro (h | ⟨b, hbm, rfl | rfl⟩)
      · exact h
      · exact (hb b hbm).1
      · exact (hb b hbm).2
    · exact Or.inl
  have hlt : ∀ c ∈ cc, ∀ i ∈ c, i < n := fun c hc i hi => (hmem i).1 (List.mem_flatten.2 ⟨c, hc, hi⟩)
  obtain ⟨out, h1, h2, h3, _⟩ := fold_ok cc (List.replicate n 0) (fun c hc i hi => by rw [List.length_replicate]; exact hlt c hc i hi) hcc.nodup
  refine ⟨out, h1, by rw [h2, List.length_replicate], fun i hi => ?_⟩
  obtain ⟨c, hc, hic⟩ := List.mem_flatten.1 ((hmem i).2 hi)
  rw [h3 c hc i hic, Option.some.injEq]
  have hnd : c.Nodup := (List.nodup_flatten.1 hcc.nodup).1 c hc
  refine List.Perm.length_eq ((List.perm_ext_iff_of_nodup hnd (List.nodup_range.filter _)).2 fun j => ?_)
  rw [List.mem_filter, List.mem_range, decide_eq_true_iff, ← hcc.linked c hc i hic j]
  exact ⟨fun h => ⟨hlt c hc j h, h⟩, fun h => h.2⟩

/-- C255, the part that is false. A bond with a particle that has no point is an `IndexError`. -/
theorem C255_beyond_counterexample (n : Nat) (bonds : List (Nat × Nat)) (cc : List (List Nat)) (hcc : Components n bonds cc) (b : Nat × Nat)
    (hb : b ∈ bonds) (hn : n ≤ b.2) : clustersize n cc = .error .outOfRange := by
  obtain ⟨c, hc, hbc⟩ := List.mem_flatten.1 ((hcc.mem b.2).2 (Or.inr ⟨b, hb, Or.inr rfl⟩))
  suffices h : ∀ (l : List (List Nat)) (out : List Nat), c ∈ l → out.length = n → l.foldlM setAll out = .error .outOfRange by
    exact h cc _ hc List.length_replicate
  intro l
  induction l with
  | nil => intro _ h; exact absurd h List.not_mem_nil
  | cons a l ih =>
    intro out hcl hl
    rw [List.foldlM_cons]
    by_cases hall : a.all fun i => decide (i < out.length)
    · have hs : setAll out a = .ok (a.foldl (fun o i => o.set i a.length) out) := by rw [setAll, if_pos hall]
      rw [hs, ok_bind]
      rcases List.mem_cons.1 hcl with rfl | hcl
      · have := of_decide_eq_true (List.all_eq_true.1 hall b.2 hbc)
        omega
      · exact ih _ hcl (by rw [foldl_set_length]; exact hl)
    · rw [setAll, if_neg hall]
      rfl

/-- Three points and a bond. -/
theorem components_three : Components 3 [(0, 1)] [[0, 1], [2]] := by
  have h01 : Linked [(0, 1)] 0 1 := Relation.EqvGen.rel _ _ List.mem_cons_self
  have hinv : ∀ a b, Linked [(0, 1)] a b → a = b ∨ (a < 2 ∧ b < 2) := by
    intro a b h
    induction h with
    | rel a b h =>
      rw [List.mem_singleton, Prod.mk.injEq] at h
      omega
    | refl a => exact Or.inl rfl
    | symm a b _ ih => omega
    | trans a b c _ _ ih1 ih2 => omega
  refine ⟨by decide, ?_, ?_⟩
  · intro i
    simp
    omega
  · intro c hc i hi j
    rcases List.mem_cons.1 hc with rfl | hc
    · constructor
      · intro hj
        simp at hi hj
        rcases hi with rfl | rfl <;> rcases hj with rfl | rfl
        · exact Relation.EqvGen.refl _
        · exact h01
        · exact Relation.EqvGen.symm _ _ h01
        · exact Relation.EqvGen.refl _
      · intro h
        have := hinv i j h
        simp at hi ⊢
        omega
    · rw [List.mem_singleton.1 hc] at hi ⊢
      rw [List.mem_singleton] at hi ⊢
      subst hi
      constructor
      · rintro rfl
        exact Relation.EqvGen.refl _
      · intro h
        have := hinv 2 j h
        omega

example : Components 3 [(0, 1)] [[0, 1], [2]] ∧ ∀ b ∈ [((0 : Nat), (1 : Nat))], b.1 < 3 ∧ b.2 < 3 := ⟨components_three, by decide⟩

/-- A single point with a bond to another particle. -/
example : Components 1 [(0, 1)] [[0, 1]] ∧ (1 : Nat) ≤ ((0, 1) : Nat × Nat).2 := by
  refine ⟨⟨by decide, fun i => by simp, ?_⟩, by decide⟩
  intro c hc i hi j
  rw [List.mem_singleton.1 hc] at hi ⊢
  have hc3 := components_three.linked [0, 1] List.mem_cons_self i hi j
  exact hc3

end ClusterSize
end Py
end Colloids
