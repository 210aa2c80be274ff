import Mathlib.Tactic.Linarith
import Mathlib.Tactic.Positivity
import Mathlib.Tactic.NormNum
import Mathlib.Data.Rat.Floor
import Mathlib.Data.List.Perm.Basic
import Mathlib.Logic.Relation
import Mathlib.Data.Fintype.Basic
import Mathlib.Data.Fintype.EquivFin
import Verif.CommonLemmas
import Verif.Py.TrackDrawModel

/-!
# Groups of centers of `python/colloids/track.py`
-/

namespace Colloids
namespace Py
namespace Track

/-! ### `split_clusters` -/

section Split

variable {F : Type} [Field F] [LinearOrder F] [IsStrictOrderedRing F] [FloorRing F]

omit [Field F] [IsStrictOrderedRing F] [FloorRing F] in
theorem argmaxBy_spec {α : Type} (r : α → F) (a : α) (l : List α) :
    argmaxBy r a l ∈ a :: l ∧ ∀ x ∈ a :: l, r x ≤ r (argmaxBy r a l) := by
  induction l generalizing a with
  | nil => simp [argmaxBy]
  | cons b l ih =>
    unfold argmaxBy
    split
    · rename_i h
      obtain ⟨h1, h2⟩ := ih b
      refine ⟨List.mem_cons_of_mem _ h1, fun x hx => ?_⟩
      rcases List.mem_cons.1 hx with rfl | hx
      · exact h.le.trans (h2 b (by simp))
      · exact h2 x hx
    · rename_i h
      obtain ⟨h1, h2⟩ := ih a
      refine ⟨?_, fun x hx => ?_⟩
      · rcases List.mem_cons.1 h1 with h1 | h1
        · rw [h1]; simp
        · exact List.mem_cons_of_mem _ (List.mem_cons_of_mem _ h1)
      · rcases List.mem_cons.1 hx with rfl | hx
        · exact h2 _ (by simp)
        · rcases List.mem_cons.1 hx with rfl | hx
          · exact (not_lt.1 h).trans (h2 a (by simp))
          · exact h2 x (List.mem_cons_of_mem _ hx)

theorem takeAll_ok {α : Type} (centers : List α) (k : List Nat) (hk : ∀ p ∈ k, p < centers.length) :
    ∃ cl, takeAll centers k = .ok cl ∧ cl.map Prod.fst = k ∧ ∀ x ∈ cl, centers[x.1]? = some x.2 := by
  induction k with
  | nil => exact ⟨[], rfl, rfl, by simp⟩
  | cons p k ih =>
    obtain ⟨cl, h1, h2, h3⟩ := ih fun q hq => hk q (List.mem_cons_of_mem _ hq)
    have hp := hk p (by simp)
    refine ⟨(p, centers[p]) :: cl, ?_, by simp [h2], ?_⟩
    · unfold takeAll at h1 ⊢
      rw [List.mapM_cons, List.getElem?_eq_getElem hp, ok_bind, h1, ok_bind]
      rfl
    · intro x hx
      rcases List.mem_cons.1 hx with rfl | hx
      · exact List.getElem?_eq_getElem hp
      · exact h3 x hx

/-- a member overlaps all others and is the largest -/
def Star (centers : List ((F × F × F) × F)) (k : List Nat) : Prop :=
  ∃ m ∈ k, ∃ M, centers[m]? = some M ∧ ∀ p ∈ k, ∃ c, centers[p]? = some c ∧
    c.2 ≤ M.2 ∧ sqdist c.1 M.1 < (c.2 + M.2) ^ 2

/-- one iteration -/
theorem splitOne_ok (centers : List ((F × F × F) × F)) (hr : ∀ c ∈ centers, 0 < c.2) (k : List Nat)
    (hk : ∀ p ∈ k, p < centers.length) :
    ∃ core out, splitOne centers k = .ok (core, out) ∧ (core ++ (out.getD [])).Perm k ∧
      core.Sublist k ∧ (∀ o ∈ out, o.Sublist k) ∧ (k ≠ [] → core ≠ [] ∧ Star centers core) ∧
      (∀ o ∈ out, core ≠ []) ∧ (k = [] → core = [] ∧ out = none) := by
  obtain ⟨cl, h1, h2, h3⟩ := takeAll_ok centers k hk
  unfold splitOne
  rw [h1, ok_bind]
  cases cl with
  | nil =>
    have hk0 : k = [] := by simpa using h2.symm
    subst hk0
    exact ⟨[], none, rfl, by simp, by simp, by simp, by simp, by simp, by simp⟩
  | cons c rest =>
    have hk0 : k ≠ [] := by rintro rfl; simp at h2
    obtain ⟨hM, hmax⟩ := argmaxBy_spec (fun x : Nat × (F × F × F) × F => x.2.2) c rest
    dsimp only
    generalize argmaxBy (fun x : Nat × (F × F × F) × F => x.2.2) c rest = M at hM hmax ⊢
    have hMr : 0 < M.2.2 := hr M.2 (List.mem_of_getElem? (h3 M hM))
    have hMc : sqdist M.2.1 M.2.1 < (M.2.2 + M.2.2) ^ 2 := by
      unfold sqdist; simp only [sub_self]; nlinarith
    generalize hcl : c :: rest = cl at *
    have hstar : ∀ l : List (Nat × (F × F × F) × F), (∀ x ∈ l, x ∈ cl ∧ sqdist x.2.1 M.2.1 < (x.2.2 + M.2.2) ^ 2) →
        M ∈ l → Star centers (l.map Prod.fst) := by
      intro l hl hMl
      refine ⟨M.1, List.mem_map_of_mem hMl, M.2, h3 M hM, fun p hp => ?_⟩
      obtain ⟨x, hx, rfl⟩ := List.mem_map.1 hp
      exact ⟨x.2, h3 x (hl x hx).1, hmax x (hl x hx).1, (hl x hx).2⟩
    split
    · rename_i hall
      rw [List.all_eq_true] at hall
      refine ⟨k, none, rfl, by simp, List.Sublist.refl k, by simp, fun _ => ⟨hk0, ?_⟩, by simp,
        fun h => absurd h hk0⟩
      rw [← h2]
      exact hstar cl (fun x hx => ⟨hx, of_decide_eq_true (hall x hx)⟩) hM
    · have hMf : M ∈ cl.filter fun x => decide (sqdist x.2.1 M.2.1 < (x.2.2 + M.2.2) ^ 2) :=
        List.mem_filter.2 ⟨hM, decide_eq_true hMc⟩
      have hne : (cl.filter fun x => decide (sqdist x.2.1 M.2.1 < (x.2.2 + M.2.2) ^ 2)).map Prod.fst ≠ [] := by
        intro h
        rw [List.map_eq_nil_iff] at h
        rw [h] at hMf
        simp at hMf
      refine ⟨_, _, rfl, ?_, ?_, ?_, fun _ => ⟨hne, hstar _ (fun x hx => ?_) hMf⟩, fun _ _ => hne,
        fun h => absurd h hk0⟩
      · rw [Option.getD_some, ← List.map_append, ← h2]
        exact (List.filter_append_perm _ cl).map _
      · rw [← h2]
        exact List.filter_sublist.map _
      · intro o ho
        rw [Option.mem_some_iff] at ho
        rw [← ho, ← h2]
        exact List.filter_sublist.map _
      · exact ⟨(List.mem_filter.1 hx).1, of_decide_eq_true (List.mem_filter.1 hx).2⟩

theorem split_all (centers : List ((F × F × F) × F)) (hr : ∀ c ∈ centers, 0 < c.2) (fuel : Nat)
    (todo : List (List Nat)) (hk : ∀ k ∈ todo, ∀ p ∈ k, p < centers.length)
    (hf : todo.flatten.length + todo.length ≤ fuel) :
    ∃ res, splitLoop centers fuel todo = .ok res ∧ res.flatten.Perm todo.flatten ∧
      (∀ k ∈ res, ∃ k0 ∈ todo, k.Sublist k0) ∧
      (∀ (i : Nat) k0, todo[i]? = some k0 → ∃ k, res[i]? = some k ∧ k.Sublist k0 ∧ (k0 ≠ [] → k ≠ [])) ∧
      ∀ k ∈ res, k ≠ [] → Star centers k := by
  induction fuel generalizing todo with
  | zero =>
    have : todo = [] := List.length_eq_zero_iff.1 (by omega)
    subst this
    exact ⟨[], rfl, by simp, by simp, by simp, by simp⟩
  | succ fuel ih =>
    cases todo with
    | nil => exact ⟨[], rfl, by simp, by simp, by simp, by simp⟩
    | cons k todo =>
      obtain ⟨core, out, e, hp, hs, ho, hst, hne, hnil⟩ := splitOne_ok centers hr k (hk k (by simp))
      have hmeas : (todo ++ out.toList).flatten.length + (todo ++ out.toList).length ≤ fuel := by
        have hl := hp.length_eq
        cases out with
        | none =>
          simp only [List.flatten_cons, List.length_append, List.length_cons] at hf
          simp only [Option.toList_none, List.append_nil]
          omega
        | some o =>
          have hc : core ≠ [] := hne o rfl
          have := List.length_pos_iff.2 hc
          simp only [Option.getD_some, List.length_append] at hl
          simp only [List.flatten_cons, List.length_append, List.length_cons] at hf
          simp only [Option.toList_some, List.flatten_append, List.length_append, List.flatten_cons,
            List.flatten_nil, List.append_nil, List.length_cons, List.length_nil]
          omega
      have hsub : ∀ k1 ∈ todo ++ out.toList, ∃ k0 ∈ k :: todo, k1.Sublist k0 := by
        intro k1 h1
        rcases List.mem_append.1 h1 with h1 | h1
        · exact ⟨k1, List.mem_cons_of_mem _ h1, List.Sublist.refl _⟩
        · exact ⟨k, by simp, ho k1 (by simpa using h1)⟩
      obtain ⟨res, r1, r2, r3, r4, r5⟩ := ih (todo ++ out.toList) (fun k1 h1 p hp1 => by
        obtain ⟨k0, h2, h3⟩ := hsub k1 h1
        exact hk k0 h2 p (h3.subset hp1)) hmeas
      refine ⟨core :: res, ?_, ?_, ?_, ?_, ?_⟩
      · rw [splitLoop, e, ok_bind, r1, ok_bind]; rfl
      · rw [List.flatten_cons, List.flatten_cons]
        refine (List.Perm.append_left core r2).trans ?_
        rw [List.flatten_append]
        have : out.toList.flatten = out.getD [] := by cases out <;> simp
        rw [this]
        refine List.Perm.trans ?_ (List.Perm.append_right todo.flatten hp)
        rw [List.append_assoc]
        exact List.Perm.append_left core List.perm_append_comm
      · intro k1 h1
        rcases List.mem_cons.1 h1 with rfl | h1
        · exact ⟨k, by simp, hs⟩
        · obtain ⟨k2, h2, h3⟩ := r3 k1 h1
          obtain ⟨k0, h4, h5⟩ := hsub k2 h2
          exact ⟨k0, h4, h3.trans h5⟩
      · intro i k0 hi
        cases i with
        | zero =>
          simp only [List.getElem?_cons_zero, Option.some.injEq] at hi
          subst hi
          exact ⟨core, rfl, hs, fun h => (hst h).1⟩
        | succ i =>
          rw [List.getElem?_cons_succ] at hi ⊢
          refine r4 i k0 ?_
          have : i < todo.length := (List.getElem?_eq_some_iff.1 hi).1
          rw [List.getElem?_append_left this]
          exact hi
      · intro k1 h1 hk1
        rcases List.mem_cons.1 h1 with rfl | h1
        · by_cases hk0 : k = []
          · exact absurd (hnil hk0).1 hk1
          · exact (hst hk0).2
        · exact r5 k1 h1 hk1

/-- **C192** With positive radii `split_clusters` ends, and returns a partition of the same particles in which the
largest member of each cluster overlaps all its other members; clusters are parts of those that were
given, those of the same number first. -/
theorem C192_split (centers : List ((F × F × F) × F)) (hr : ∀ c ∈ centers, 0 < c.2)
    (clusters : List (List Nat)) (hk : ∀ k ∈ clusters, ∀ p ∈ k, p < centers.length) :
    ∃ res, (∃ fuel0, ∀ fuel, fuel0 ≤ fuel → splitLoop centers fuel clusters = .ok res) ∧
      res.flatten.Perm clusters.flatten ∧
      (∀ k ∈ res, ∃ k0 ∈ clusters, k.Sublist k0) ∧
      (∀ (i : Nat) k0, clusters[i]? = some k0 →
        ∃ k, res[i]? = some k ∧ k.Sublist k0 ∧ (k0 ≠ [] → k ≠ [])) ∧
      ∀ k ∈ res, k ≠ [] → ∃ m ∈ k, ∃ M, centers[m]? = some M ∧ ∀ p ∈ k, ∃ c, centers[p]? = some c ∧
        c.2 ≤ M.2 ∧ (c.1.1 - M.1.1) ^ 2 + (c.1.2.1 - M.1.2.1) ^ 2 + (c.1.2.2 - M.1.2.2) ^ 2
          < (c.2 + M.2) ^ 2 := by
  have mono : ∀ (f1 : Nat) (todo : List (List Nat)) (res : List (List Nat)),
      splitLoop centers f1 todo = .ok res → splitLoop centers (f1 + 1) todo = .ok res := by
    intro f1
    induction f1 with
    | zero =>
      intro todo res h
      cases todo with
      | nil => exact h
      | cons k todo => cases h
    | succ f1 ih =>
      intro todo res h
      cases todo with
      | nil => exact h
      | cons k todo =>
        rw [splitLoop] at h ⊢
        obtain ⟨r, h1, h2⟩ := bind_ok.1 h
        obtain ⟨rest, h3, h4⟩ := bind_ok.1 h2
        rw [h1, ok_bind, ih _ _ h3, ok_bind]
        exact h4
  obtain ⟨res, r1, r2⟩ := split_all centers hr _ clusters hk le_rfl
  refine ⟨res, ⟨clusters.flatten.length + clusters.length, fun fuel hf => ?_⟩, r2⟩
  induction fuel, hf using Nat.le_induction with
  | base => exact r1
  | succ n _ ih => exact mono n clusters res ih

/-- two balls that overlap and one apart -/
example : (∀ c ∈ [(((0 : ℚ), 0, 0), (1 : ℚ)), ((1, 0, 0), 1), ((5, 0, 0), 1)], 0 < c.2)
    ∧ ∀ k ∈ [[0, 1, 2]], ∀ p ∈ k, p < [(((0 : ℚ), 0, 0), (1 : ℚ)), ((1, 0, 0), 1), ((5, 0, 0), 1)].length := by
  refine ⟨by simp, by simp⟩

/-- **C192, counterexample** A cluster of particles of radius zero is appended again and again: the function
does not end. -/
theorem C192_zero_radius_counterexample (centers : List ((F × F × F) × F)) (k : List Nat) (h0 : k ≠ [])
    (hk : ∀ p ∈ k, ∃ c, centers[p]? = some c ∧ c.2 = 0) (fuel : Nat) :
    splitLoop centers fuel [k] = .error .diverge := by
  have hlen : ∀ p ∈ k, p < centers.length := fun p hp => by
    obtain ⟨c, hc, -⟩ := hk p hp
    exact (List.getElem?_eq_some_iff.1 hc).1
  obtain ⟨cl, h1, h2, h3⟩ := takeAll_ok centers k hlen
  have hz : ∀ x ∈ cl, x.2.2 = 0 := by
    intro x hx
    obtain ⟨c, hc, hc0⟩ := hk x.1 (h2 ▸ List.mem_map_of_mem hx)
    rw [h3 x hx, Option.some.injEq] at hc
    rw [hc, hc0]
  have hone : splitOne centers k = .ok ([], some k) := by
    unfold splitOne
    rw [h1, ok_bind]
    cases cl with
    | nil => exact absurd (by simpa using h2.symm) h0
    | cons c rest =>
      obtain ⟨hM, -⟩ := argmaxBy_spec (fun x : Nat × (F × F × F) × F => x.2.2) c rest
      dsimp only
      generalize argmaxBy (fun x : Nat × (F × F × F) × F => x.2.2) c rest = M at hM ⊢
      have hno : ∀ x ∈ c :: rest, decide (sqdist x.2.1 M.2.1 < (x.2.2 + M.2.2) ^ 2) = false := by
        intro x hx
        rw [hz x hx, hz M hM]
        apply decide_eq_false
        unfold sqdist
        have := sq_nonneg (x.2.1.1 - M.2.1.1)
        have := sq_nonneg (x.2.1.2.1 - M.2.1.2.1)
        have := sq_nonneg (x.2.1.2.2 - M.2.1.2.2)
        simp only [add_zero]
        linarith
      rw [if_neg, List.filter_eq_nil_iff.2, List.filter_eq_self.2, h2]
      · rfl
      · intro x hx; rw [hno x hx]; rfl
      · intro x hx; rw [hno x hx]; simp
      · rw [List.all_eq_true]
        intro h
        have := h c (by simp)
        rw [hno c (by simp)] at this
        cases this
  induction fuel with
  | zero => rfl
  | succ fuel ih =>
    rw [splitLoop, hone, ok_bind]
    simp only [List.nil_append, Option.toList_some, ih]
    rfl

example : ∀ p ∈ [0], ∃ c, [(((0 : ℚ), 0, 0), (0 : ℚ))][p]? = some c ∧ c.2 = 0 := by simp

end Split

/-! ### `label_clusters` -/

/-- voxels that touch by a face, an edge or a corner -/
def Touch (a b : Nat × Nat × Nat) : Prop :=
  (a.1 ≤ b.1 + 1 ∧ b.1 ≤ a.1 + 1) ∧ (a.2.1 ≤ b.2.1 + 1 ∧ b.2.1 ≤ a.2.1 + 1)
    ∧ (a.2.2 ≤ b.2.2 + 1 ∧ b.2.2 ≤ a.2.2 + 1)

/-- there is a chain of centers from one to the other -/
def Linked (centers : List (Nat × Nat × Nat)) : Nat × Nat × Nat → Nat × Nat × Nat → Prop :=
  Relation.ReflTransGen fun a b => (a ∈ centers ∧ b ∈ centers) ∧ Touch a b

/-- what `measurements.label` does -/
structure Labels (label : Labeller) : Prop where
  zero : ∀ (cs : List (Nat × Nat × Nat)) v, (label fun v => decide (v ∈ cs)).1 v = 0 ↔ v ∉ cs
  le : ∀ (cs : List (Nat × Nat × Nat)) v, (label fun v => decide (v ∈ cs)).1 v ≤ (label fun v => decide (v ∈ cs)).2
  onto : ∀ (cs : List (Nat × Nat × Nat)) i, 1 ≤ i → i ≤ (label fun v => decide (v ∈ cs)).2 →
    ∃ v, (label fun v => decide (v ∈ cs)).1 v = i
  conn : ∀ (cs : List (Nat × Nat × Nat)) v w, v ∈ cs → w ∈ cs →
    ((label fun v => decide (v ∈ cs)).1 v = (label fun v => decide (v ∈ cs)).1 w ↔ Linked cs v w)

theorem Touch.symm {a b : Nat × Nat × Nat} (h : Touch a b) : Touch b a :=
  ⟨⟨h.1.2, h.1.1⟩, ⟨h.2.1.2, h.2.1.1⟩, ⟨h.2.2.2, h.2.2.1⟩⟩

theorem Linked.symm {cs : List (Nat × Nat × Nat)} {a b : Nat × Nat × Nat} (h : Linked cs a b) :
    Linked cs b a := by
  induction h with
  | refl => exact Relation.ReflTransGen.refl
  | tail _ hxy ih => exact Relation.ReflTransGen.head ⟨⟨hxy.1.2, hxy.1.1⟩, hxy.2.symm⟩ ih

/-- there is such a function -/
theorem labels_exists : ∃ label : Labeller, Labels label := by
  classical
  have main : ∀ cs : List (Nat × Nat × Nat), ∃ l : (Nat × Nat × Nat → Nat) × Nat,
      (∀ v, l.1 v = 0 ↔ v ∉ cs) ∧ (∀ v, l.1 v ≤ l.2) ∧ (∀ i, 1 ≤ i → i ≤ l.2 → ∃ v, l.1 v = i) ∧
      ∀ v w, v ∈ cs → w ∈ cs → (l.1 v = l.1 w ↔ Linked cs v w) := by
    intro cs
    let st : Setoid {v // v ∈ cs} :=
      ⟨fun a b => Linked cs a.1 b.1, ⟨fun _ => Relation.ReflTransGen.refl, fun h => h.symm,
        fun h h' => h.trans h'⟩⟩
    have : Fintype {v // v ∈ cs} := List.Subtype.fintype cs
    have : Fintype (Quotient st) := Quotient.fintype st
    let e := Fintype.equivFin (Quotient st)
    refine ⟨(fun v => if h : v ∈ cs then (e (Quotient.mk st ⟨v, h⟩)).1 + 1 else 0,
      Fintype.card (Quotient st)), ?_, ?_, ?_, ?_⟩
    · intro v
      by_cases h : v ∈ cs <;> simp [h]
    · intro v
      by_cases h : v ∈ cs
      · simp only [h, dif_pos]
        exact (e (Quotient.mk st ⟨v, h⟩)).2
      · simp [h]
    · intro i h1 h2
      obtain ⟨q, hq⟩ := e.surjective ⟨i - 1, by dsimp only at h2; omega⟩
      obtain ⟨a, rfl⟩ := Quotient.exists_rep q
      refine ⟨a.1, ?_⟩
      simp only [a.2, dif_pos]
      have : (⟦a⟧ : Quotient st) = Quotient.mk st ⟨a.1, a.2⟩ := rfl
      rw [← this, hq]
      simp only
      omega
    · intro v w hv hw
      simp only [hv, hw, dif_pos, Nat.add_right_cancel_iff]
      rw [← Fin.ext_iff, e.injective.eq_iff, Quotient.eq]
      rfl
  choose f hf using main
  have key : ∀ cs cs' : List (Nat × Nat × Nat),
      (fun v => decide (v ∈ cs)) = (fun v => decide (v ∈ cs')) → ∀ v, v ∈ cs ↔ v ∈ cs' := by
    intro cs cs' h v
    have := congrFun h v
    simpa using this
  refine ⟨fun d => if h : ∃ cs : List (Nat × Nat × Nat), d = fun v => decide (v ∈ cs) then f h.choose
    else (fun _ => 0, 0), ?_⟩
  have val : ∀ cs : List (Nat × Nat × Nat), ∃ cs' : List (Nat × Nat × Nat), (∀ v, v ∈ cs ↔ v ∈ cs') ∧
      (if h : ∃ cs1 : List (Nat × Nat × Nat), (fun v => decide (v ∈ cs)) = fun v => decide (v ∈ cs1)
        then f h.choose else (fun _ => 0, 0)) = f cs' := by
    intro cs
    have h : ∃ cs1 : List (Nat × Nat × Nat), (fun v => decide (v ∈ cs)) = fun v => decide (v ∈ cs1) :=
      ⟨cs, rfl⟩
    exact ⟨h.choose, key _ _ h.choose_spec, dif_pos h⟩
  constructor
  · intro cs v
    obtain ⟨cs', h1, h2⟩ := val cs
    rw [h2, (hf cs').1, h1]
  · intro cs v
    obtain ⟨cs', h1, h2⟩ := val cs
    rw [h2]
    exact (hf cs').2.1 v
  · intro cs i
    obtain ⟨cs', h1, h2⟩ := val cs
    rw [h2]
    exact (hf cs').2.2.1 i
  · intro cs v w hv hw
    obtain ⟨cs', h1, h2⟩ := val cs
    rw [h2, (hf cs').2.2.2 v w ((h1 v).1 hv) ((h1 w).1 hw)]
    unfold Linked
    simp only [h1]

theorem modify_perm (cl : List (List Nat)) (i x : Nat) (hi : i < cl.length) :
    (cl.modify i (· ++ [x])).flatten.Perm (cl.flatten ++ [x]) := by
  induction cl generalizing i with
  | nil => simp at hi
  | cons a cl ih =>
    cases i with
    | zero =>
      simp only [List.modify_zero_cons, List.flatten_cons, List.append_assoc]
      exact List.Perm.append_left a List.perm_append_comm
    | succ i =>
      simp only [List.modify_succ_cons, List.flatten_cons, List.append_assoc]
      exact List.Perm.append_left a (ih i (by simpa using hi))

theorem cluster_fold {α : Type} (lab : α → Nat) (l : List (α × Nat)) (cl : List (List Nat))
    (h : ∀ c ∈ l, lab c.1 < cl.length) :
    (l.foldl (fun cl c => cl.modify (lab c.1) (· ++ [c.2])) cl).length = cl.length ∧
    (l.foldl (fun cl c => cl.modify (lab c.1) (· ++ [c.2])) cl).flatten.Perm (cl.flatten ++ l.map Prod.snd) ∧
    ∀ (j : Nat) k, cl[j]? = some k →
      (l.foldl (fun cl c => cl.modify (lab c.1) (· ++ [c.2])) cl)[j]? =
        some (k ++ (l.filter fun c => lab c.1 == j).map Prod.snd) := by
  induction l generalizing cl with
  | nil => simp
  | cons c l ih =>
    obtain ⟨h1, h2, h3⟩ := ih (cl.modify (lab c.1) (· ++ [c.2])) (fun d hd => by
      rw [List.length_modify]; exact h d (List.mem_cons_of_mem _ hd))
    rw [List.foldl_cons]
    refine ⟨by rw [h1, List.length_modify], ?_, fun j k hj => ?_⟩
    · refine h2.trans ?_
      rw [List.map_cons]
      refine (List.Perm.append_right _ (modify_perm cl _ c.2 (h c (by simp)))).trans ?_
      simp
    · by_cases e : lab c.1 = j
      · rw [h3 j (k ++ [c.2]) (by rw [List.getElem?_modify, e]; simp [hj])]
        simp [e]
      · rw [h3 j k (by rw [List.getElem?_modify]; simp [e, hj])]
        simp [e]

/-- **C192** `label_clusters` returns a partition of the centers in which two centers are in the same cluster if and
only if there is a chain from one to the other of centers that touch; the first cluster is empty and the
others are not. -/
theorem C192_label (label : Labeller) (hlab : Labels label) (centers : List (Nat × Nat × Nat))
    (h0 : centers ≠ []) :
    ∃ cl, labelClusters label centers = .ok cl ∧ cl.flatten.Perm (List.range centers.length) ∧
      cl[0]? = some [] ∧ (∀ k ∈ cl.tail, k ≠ []) ∧
      ∀ (i j : Nat) c d, centers[i]? = some c → centers[j]? = some d →
        ((∃ k ∈ cl, i ∈ k ∧ j ∈ k) ↔ Linked centers c d) := by
  unfold labelClusters
  rw [if_neg h0]
  refine ⟨_, rfl, ?_⟩
  have hz := hlab.zero centers
  have hle := hlab.le centers
  have honto := hlab.onto centers
  have hconn := hlab.conn centers
  generalize (label fun v => decide (v ∈ centers)) = l at *
  obtain ⟨f1, f2, f3⟩ := cluster_fold l.1 centers.zipIdx (List.replicate (l.2 + 1) []) (by
    intro c _
    rw [List.length_replicate]
    exact Nat.lt_succ_of_le (hle c.1))
  rw [List.length_replicate] at f1
  have hget : ∀ j, j ≤ l.2 → (centers.zipIdx.foldl (fun cl c => cl.modify (l.1 c.1) (· ++ [c.2]))
      (List.replicate (l.2 + 1) []))[j]? =
        some ((centers.zipIdx.filter fun c => l.1 c.1 == j).map Prod.snd) := by
    intro j hj
    rw [f3 j [] (by rw [List.getElem?_replicate, if_pos (by omega)]), List.nil_append]
  have hmem : ∀ i j, i ∈ (centers.zipIdx.filter fun c => l.1 c.1 == j).map Prod.snd ↔
      ∃ c, centers[i]? = some c ∧ l.1 c = j := by
    intro i j
    simp only [List.mem_map, List.mem_filter, beq_iff_eq]
    constructor
    · rintro ⟨⟨c, i'⟩, ⟨hc, hl⟩, rfl⟩
      exact ⟨c, List.mem_zipIdx_iff_getElem?.1 hc, hl⟩
    · rintro ⟨c, hc, hl⟩
      exact ⟨(c, i), ⟨List.mem_zipIdx_iff_getElem?.2 hc, hl⟩, rfl⟩
  generalize (centers.zipIdx.foldl (fun cl c => cl.modify (l.1 c.1) (· ++ [c.2]))
      (List.replicate (l.2 + 1) [])) = cl at *
  refine ⟨?_, ?_, ?_, ?_⟩
  · refine f2.trans ?_
    simp [List.zipIdx_map_snd, List.range_eq_range']
  · rw [hget 0 (Nat.zero_le _)]
    congr 1
    rw [List.eq_nil_iff_forall_not_mem]
    intro i hi
    obtain ⟨c, hc, hl⟩ := (hmem i 0).1 hi
    exact (hz c).1 hl (List.mem_of_getElem? hc)
  · intro k hk
    obtain ⟨j, hj⟩ := List.mem_iff_getElem?.1 hk
    rw [List.getElem?_tail] at hj
    have hj' : j + 1 ≤ l.2 := by
      have := (List.getElem?_eq_some_iff.1 hj).1
      omega
    rw [hget (j + 1) hj', Option.some.injEq] at hj
    obtain ⟨v, hv⟩ := honto (j + 1) (by omega) hj'
    have hvc : v ∈ centers := by
      by_contra hn
      rw [(hz v).2 hn] at hv
      omega
    obtain ⟨i, hi⟩ := List.mem_iff_getElem?.1 hvc
    have := (hmem i (j + 1)).2 ⟨v, hi, hv⟩
    rw [hj] at this
    exact List.ne_nil_of_mem this
  · intro i j c d hc hd
    rw [← hconn c d (List.mem_of_getElem? hc) (List.mem_of_getElem? hd)]
    constructor
    · rintro ⟨k, hk, hi, hj⟩
      obtain ⟨t, ht⟩ := List.mem_iff_getElem?.1 hk
      have ht' : t ≤ l.2 := by
        have := (List.getElem?_eq_some_iff.1 ht).1
        omega
      rw [hget t ht', Option.some.injEq] at ht
      subst ht
      obtain ⟨c', hc', e⟩ := (hmem i t).1 hi
      obtain ⟨d', hd', e'⟩ := (hmem j t).1 hj
      rw [hc, Option.some.injEq] at hc'
      rw [hd, Option.some.injEq] at hd'
      rw [hc', hd', e, e']
    · intro e
      refine ⟨_, List.mem_iff_getElem?.2 ⟨l.1 c, hget (l.1 c) (hle c)⟩, ?_, ?_⟩
      · exact (hmem i _).2 ⟨c, hc, rfl⟩
      · exact (hmem j _).2 ⟨d, hd, e.symm⟩

/-- two centers that touch and one apart -/
example : (∃ label : Labeller, Labels label) ∧ Linked [(0, 0, 0), (1, 1, 1), (5, 5, 5)] (0, 0, 0) (1, 1, 1) := by
  refine ⟨labels_exists, Relation.ReflTransGen.single ⟨⟨by simp, by simp⟩, ?_⟩⟩
  unfold Touch
  decide

end Track
end Py
end Colloids
