import Verif.Lif.Lemmas
import Mathlib.Data.String.Basic
import Mathlib.Data.List.Sort
import Mathlib.Algebra.BigOperators.Group.List.Basic

/-!
# Lemmas on the headers of series
-/

namespace Colloids.Lif

theorem mapInsert_mem (k : String) (v : α) (m : List (String × α)) (e : String × α)
    (he : e ∈ mapInsert k v m) : e = (k, v) ∨ e ∈ m := by
  induction m with
  | nil => simpa [mapInsert] using he
  | cons x xs ih =>
    simp only [mapInsert] at he
    split at he
    · rcases List.mem_cons.1 he with rfl | h
      · simp
      · rcases ih h with h | h
        · exact Or.inl h
        · exact Or.inr (List.mem_cons_of_mem _ h)
    · split at he
      · exact Or.inr he
      · rcases List.mem_cons.1 he with h | h
        · exact Or.inl h
        · exact Or.inr h

theorem mem_mapInsert_of_mem (k : String) (v : α) (m : List (String × α)) (e : String × α)
    (he : e ∈ m) : e ∈ mapInsert k v m := by
  induction m with
  | nil => simp at he
  | cons x xs ih =>
    simp only [mapInsert]
    split
    · rcases List.mem_cons.1 he with rfl | h
      · simp
      · exact List.mem_cons_of_mem _ (ih h)
    · split
      · exact he
      · exact List.mem_cons_of_mem _ he

theorem mem_mapInsert_self (k : String) (v : α) (m : List (String × α))
    (h : ∀ e ∈ m, e.1 ≠ k) : (k, v) ∈ mapInsert k v m := by
  induction m with
  | nil => simp [mapInsert]
  | cons x xs ih =>
    simp only [mapInsert]
    split
    · exact List.mem_cons_of_mem _ (ih (fun e he => h e (List.mem_cons_of_mem _ he)))
    · rw [if_neg (h x (by simp))]
      simp

theorem mapInsert_sorted (k : String) (v : α) (m : List (String × α))
    (h : m.Pairwise (fun a b => a.1 < b.1)) :
    (mapInsert k v m).Pairwise (fun a b => a.1 < b.1) := by
  induction m with
  | nil => simp [mapInsert]
  | cons x xs ih =>
    rw [List.pairwise_cons] at h
    simp only [mapInsert]
    split
    · rename_i hx
      refine List.Pairwise.cons (fun e he => ?_) (ih h.2)
      rcases mapInsert_mem _ _ _ _ he with rfl | h'
      · exact hx
      · exact h.1 _ h'
    · split
      · exact List.pairwise_cons.2 h
      · rename_i h1 h2
        have hk : k < x.1 := lt_of_le_of_ne (not_lt.1 h1) (fun e => h2 e.symm)
        refine List.Pairwise.cons (fun e he => ?_) (List.pairwise_cons.2 h)
        rcases List.mem_cons.1 he with rfl | h'
        · exact hk
        · exact lt_trans hk (h.1 _ h')

theorem parseDimensions_sorted (es : List Dim) :
    (parseDimensions es).Pairwise (fun a b => a.1 < b.1) := by
  unfold parseDimensions
  suffices ∀ m : List (String × Dim), m.Pairwise (fun a b => a.1 < b.1) →
      (es.foldl (fun m d => mapInsert d.getName d m) m).Pairwise (fun a b => a.1 < b.1) from
    this [] List.Pairwise.nil
  induction es with
  | nil => intro m h; exact h
  | cons d es ih => intro m h; exact ih _ (mapInsert_sorted _ _ _ h)

theorem mem_parseDimensions (es : List Dim) (h : (es.map Dim.getName).Nodup)
    (e : String × Dim) :
    e ∈ parseDimensions es ↔ e.2 ∈ es ∧ e.1 = e.2.getName := by
  unfold parseDimensions
  suffices ∀ m : List (String × Dim), (∀ e ∈ m, e.1 ∉ es.map Dim.getName) →
      (e ∈ es.foldl (fun m d => mapInsert d.getName d m) m ↔
        e ∈ m ∨ (e.2 ∈ es ∧ e.1 = e.2.getName)) by
    have := this [] (by simp)
    simpa using this
  induction es with
  | nil => intro m _; simp
  | cons d es ih =>
    intro m hm
    rw [List.map_cons, List.nodup_cons] at h
    rw [List.foldl_cons, ih h.2]
    · constructor
      · rintro (h1 | h1)
        · rcases mapInsert_mem _ _ _ _ h1 with rfl | h1
          · exact Or.inr ⟨by simp, rfl⟩
          · exact Or.inl h1
        · exact Or.inr ⟨List.mem_cons_of_mem _ h1.1, h1.2⟩
      · rintro (h1 | ⟨h1, h2⟩)
        · exact Or.inl (mem_mapInsert_of_mem _ _ _ _ h1)
        · rcases List.mem_cons.1 h1 with h3 | h3
          · refine Or.inl ?_
            have : e = (d.getName, d) := by rw [← h3, ← h2]
            rw [this]
            refine mem_mapInsert_self _ _ _ (fun e' he' heq => hm e' he' ?_)
            simp [heq]
          · exact Or.inr ⟨h3, h2⟩
    · intro e he
      rcases mapInsert_mem _ _ _ _ he with rfl | h1
      · exact h.1
      · intro h2
        exact hm e h1 (List.mem_cons_of_mem _ h2)

theorem getName_inj (a b : Dim) (ha : 1 ≤ a.dimID ∧ a.dimID ≤ 8) (hb : 1 ≤ b.dimID ∧ b.dimID ≤ 8)
    (h : a.getName = b.getName) : a.dimID = b.dimID := by
  obtain ⟨i, n, c⟩ := a
  obtain ⟨j, m, e⟩ := b
  simp only at ha hb ⊢
  have hi : i = 1 ∨ i = 2 ∨ i = 3 ∨ i = 4 ∨ i = 5 ∨ i = 6 ∨ i = 7 ∨ i = 8 := by omega
  have hj : j = 1 ∨ j = 2 ∨ j = 3 ∨ j = 4 ∨ j = 5 ∨ j = 6 ∨ j = 7 ∨ j = 8 := by omega
  rcases hi with rfl | rfl | rfl | rfl | rfl | rfl | rfl | rfl <;>
  rcases hj with rfl | rfl | rfl | rfl | rfl | rfl | rfl | rfl <;>
  first | rfl | simp [Dim.getName] at h

theorem names_nodup (es : List Dim) (h : (es.map Dim.dimID).Nodup)
    (hv : ∀ d ∈ es, 1 ≤ d.dimID ∧ d.dimID ≤ 8) : (es.map Dim.getName).Nodup := by
  induction es with
  | nil => simp
  | cons d es ih =>
    rw [List.map_cons, List.nodup_cons] at h ⊢
    refine ⟨fun hc => h.1 ?_, ih h.2 (fun e he => hv e (by simp [he]))⟩
    obtain ⟨e, he, heq⟩ := List.mem_map.1 hc
    exact List.mem_map.2 ⟨e, he, getName_inj _ _ (hv e (by simp [he])) (hv d (by simp)) heq⟩

theorem mapFind_sorted (m : List (String × α)) (h : m.Pairwise (fun a b => a.1 < b.1))
    (k : String) (v : α) (hm : (k, v) ∈ m) : mapFind k m = some v := by
  unfold mapFind
  induction m with
  | nil => simp at hm
  | cons x xs ih =>
    rw [List.pairwise_cons] at h
    rcases List.mem_cons.1 hm with rfl | h'
    · simp
    · have : ¬ x.1 = k := fun e => by
        have := h.1 _ h'
        rw [e] at this
        exact lt_irrefl _ this
      rw [List.find?_cons_of_neg (by simpa using this)]
      exact ih h.2 h'

theorem mapFind_none (m : List (String × α)) (k : String) (h : ∀ e ∈ m, e.1 ≠ k) :
    mapFind k m = none := by
  unfold mapFind
  rw [Option.map_eq_none_iff, List.find?_eq_none]
  intro e he
  simpa using h e he

theorem natProd_pos (l : List Nat) (h : ∀ x ∈ l, 0 < x) : 0 < l.prod := by
  induction l with
  | nil => simp
  | cons x l ih =>
    rw [List.prod_cons]
    exact Nat.mul_pos (h x (by simp)) (ih (fun y hy => h y (by simp [hy])))

/-- The product is not wrapped when no product of the first factors reaches `2 ^ 31`. -/
theorem accumulate_ok (dims : List Nat) (hpos : ∀ d ∈ dims, 0 < d) (h : dims.prod < 2 ^ 31) :
    accumulateProduct dims = dims.prod := by
  unfold accumulateProduct
  suffices ∀ a : Nat, a * dims.prod < 2 ^ 31 →
      dims.foldl (fun acc d => toI32 (toU64 acc * d % 2 ^ 64)) (a : Int)
        = ((a * dims.prod : Nat) : Int) by
    have := this 1 (by simpa using h)
    simpa using this
  clear h
  induction dims with
  | nil => intro a _; simp
  | cons d ds ih =>
    intro a ha
    have hd : 0 < d := hpos d (by simp)
    have hds : 0 < ds.prod := natProd_pos ds (fun x hx => hpos x (by simp [hx]))
    rw [List.prod_cons, ← Nat.mul_assoc] at ha ⊢
    have hle : a * d ≤ a * d * ds.prod := Nat.le_mul_of_pos_right _ hds
    have hle2 : a ≤ a * d := Nat.le_mul_of_pos_right _ hd
    have hu : toU64 (a : Int) = a := by
      unfold toU64
      omega
    have hi : toI32 (a * d % 2 ^ 64) = ((a * d : Nat) : Int) := by
      have hm : a * d % 2 ^ 64 = a * d := Nat.mod_eq_of_lt (by omega)
      rw [hm]
      unfold toI32
      rw [Int.bmod_eq_of_le] <;> omega
    rw [List.foldl_cons, hu, hi]
    exact ih (fun x hx => hpos x (by simp [hx])) (a * d) ha

end Colloids.Lif
