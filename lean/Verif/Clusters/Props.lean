import Verif.Clusters.Lemmas

/-! # Property C09: cluster segregation returns the connected components

Vocabulary: `Ngb ngbs a b` — `b` is in the list of neighbours of `a`;
`Edge ngbs pop a b` — the same, `a` and `b` both in the population. -/

namespace Colloids
open Clusters

/-- C09 (any neighbour lists, symmetric or not). `segregate` terminates without fault, appends to the
list of clusters, and the new clusters are non-empty, duplicate-free, pairwise disjoint and cover
exactly the population. -/
theorem C09_partition (population : List Nat) (clusters : List (List Nat)) (ngbs : NgbList)
    (hset : population.Nodup) (hin : ∀ x ∈ population, x < ngbs.length) :
    ∃ cs, segregate population clusters ngbs = .ok (clusters ++ cs) ∧
      (∀ C ∈ cs, C ≠ [] ∧ C.Pairwise (· < ·)) ∧
      cs.Pairwise (fun C D => ∀ x ∈ C, x ∉ D) ∧
      (∀ x, x ∈ population ↔ ∃ C ∈ cs, x ∈ C) := by
  obtain ⟨cs, h1, h2, h3, h4, -⟩ := segregateLoop_ok ngbs _ population clusters hset
    (Nat.lt_succ_self _) hin
  refine ⟨cs, h1, h4, ?_, ?_⟩
  · rw [List.nodup_flatten] at h2
    exact h2.2.imp (fun {C D} h x hx hD => h hx hD)
  · intro x; rw [← h3, List.mem_flatten]

/-- C09. When the neighbour relation is symmetric inside the population, two members of the
population are in the same cluster iff a path of neighbours inside the population links them. -/
theorem C09_components (population : List Nat) (clusters : List (List Nat)) (ngbs : NgbList)
    (hset : population.Nodup) (hin : ∀ x ∈ population, x < ngbs.length)
    (hsym : ∀ a b, a ∈ population → b ∈ population → Ngb ngbs a b → Ngb ngbs b a) :
    ∃ cs, segregate population clusters ngbs = .ok (clusters ++ cs) ∧
      ∀ a b, a ∈ population → b ∈ population →
        ((∃ C ∈ cs, a ∈ C ∧ b ∈ C) ↔ Relation.ReflTransGen (Edge ngbs population) a b) := by
  obtain ⟨cs, h1, h2, h3, h4, h5⟩ := segregateLoop_ok ngbs _ population clusters hset
    (Nat.lt_succ_self _) hin
  refine ⟨cs, h1, ?_⟩
  intro a b ha hb
  constructor
  · rintro ⟨C, hC, h, h'⟩; exact ((h5 hsym C hC a h b).1 h').2
  · intro hr
    obtain ⟨C, hC, haC⟩ := List.mem_flatten.1 ((h3 a).2 ha)
    exact ⟨C, hC, haC, (h5 hsym C hC a haC b).2 ⟨hb, hr⟩⟩

/-- C09 for `segregateAll`: all the particles, each having a row in a symmetric neighbour list. -/
theorem C09_all (clusters : List (List Nat)) (ngbs : NgbList)
    (hsym : ∀ a b, Ngb ngbs a b → b < ngbs.length → Ngb ngbs b a) :
    ∃ cs, segregateAll clusters ngbs.length ngbs = .ok (clusters ++ cs) ∧
      (∀ C ∈ cs, C ≠ [] ∧ C.Pairwise (· < ·)) ∧
      cs.Pairwise (fun C D => ∀ x ∈ C, x ∉ D) ∧
      (∀ x, x < ngbs.length ↔ ∃ C ∈ cs, x ∈ C) ∧
      ∀ a b, a < ngbs.length → b < ngbs.length →
        ((∃ C ∈ cs, a ∈ C ∧ b ∈ C) ↔
          Relation.ReflTransGen (fun x y => y < ngbs.length ∧ Ngb ngbs x y) a b) := by
  have hin : ∀ x ∈ List.range ngbs.length, x < ngbs.length := by simp
  obtain ⟨cs, h1, h2, h3, h4⟩ := C09_partition (List.range ngbs.length) clusters ngbs
    List.nodup_range hin
  obtain ⟨cs', h1', h5⟩ := C09_components (List.range ngbs.length) clusters ngbs
    List.nodup_range hin (fun a b _ hb h => hsym a b h (hin b hb))
  have : cs' = cs := by
    rw [h1] at h1'
    exact (List.append_cancel_left (Except.ok.inj h1')).symm
  subst this
  refine ⟨cs', h1, h2, h3, by simpa using h4, ?_⟩
  intro a b ha hb
  rw [h5 a b (by simpa using ha) (by simpa using hb)]
  constructor
  · exact reflTransGen_mono (fun x y h => ⟨hin y h.2.1, h.2.2⟩)
  · exact reflTransGen_mono (fun x y h => by
      obtain ⟨h1, row, h2, h3⟩ := h
      exact ⟨by simpa using (List.getElem?_eq_some_iff.1 h2).1, by simpa using h1, row, h2, h3⟩)

/-- The result of `segregate` on a member of the population that has no row in the neighbour list is
undefined behaviour: the hypothesis `hin` above is needed. -/
theorem C09_range_needed (ngbs : NgbList) (x : Nat) (hx : ngbs.length ≤ x) :
    segregate [x] [] ngbs = .error .ub := by
  simp only [segregate, segregateLoop, growCluster, List.length_singleton, List.length_nil]
  rw [getR_eq_ub hx]
  simp

/-- Without symmetry the clusters depend on the numbering: 1 sees 0 but they end up apart. -/
theorem C09_symmetry_needed : segregate [0, 1] [] [[], [0]] = .ok [[0], [1]] := by decide

/-- Non-vacuity: a cycle, a pair and an isolated particle; a population leaving one out. -/
example : segregate [0, 1, 2, 3, 5] [] [[1, 2], [0, 2], [0, 1], [4], [3, 5], [4]] =
    .ok [[0, 1, 2], [3], [5]] := by decide

example : ∀ a b, Ngb [[1], [0], []] a b → b < 3 → Ngb [[1], [0], []] b a := by
  rintro a b ⟨row, h1, h2⟩ -
  match a, h1 with
  | 0, h1 => simp at h1; subst h1; simp at h2; subst h2; exact ⟨_, rfl, by simp⟩
  | 1, h1 => simp at h1; subst h1; simp at h2; subst h2; exact ⟨_, rfl, by simp⟩
  | 2, h1 => simp at h1; subst h1; simp at h2

end Colloids
