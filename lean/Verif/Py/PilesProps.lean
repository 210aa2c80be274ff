import Mathlib.Tactic.Linarith
import Mathlib.Tactic.NormNum
import Mathlib.Data.List.Perm.Basic
import Mathlib.Algebra.Order.Ring.Rat
import Mathlib.Algebra.Order.Round
import Mathlib.Data.Rat.Floor
import Mathlib.Data.List.Induction
import Verif.CommonLemmas
import Verif.Py.PilesModel

/-! # C251: particles from piles of 2D centers -/

namespace Colloids
namespace Py
namespace Piles

variable {S : Type}

theorem arraySplit_flatten (start : Nat) (cl : List S) (idx : List Nat) : (arraySplit start cl idx).flatten = cl := by
  induction idx generalizing start cl with
  | nil => rw [arraySplit, List.flatten_cons, List.flatten_nil, List.append_nil]
  | cons i idx ih => rw [arraySplit, List.flatten_cons, ih, List.take_append_drop]

theorem arraySplit_le (start : Nat) (cl : List S) (idx : List Nat) : ∀ g ∈ arraySplit start cl idx, g.length ≤ cl.length := by
  intro g hg
  have h := (List.sublist_flatten_of_mem hg).length_le
  rwa [arraySplit_flatten] at h

theorem arraySplit_lt (cl : List S) (i : Nat) (idx : List Nat) (h0 : 0 < i) (h1 : i < cl.length) :
    ∀ g ∈ arraySplit 0 cl (i :: idx), g.length < cl.length := by
  intro g hg
  rw [arraySplit] at hg
  rcases List.mem_cons.1 hg with rfl | hg
  · rw [List.length_take]
    omega
  · have := arraySplit_le _ _ _ g hg
    rw [List.length_drop] at this
    omega

/-- No more cut. -/
def Final (split : List S → List Nat) (cl : List S) : Prop := cl.length < 5 ∨ split cl = []

open Classical in
/-- The pieces in the end, for clusters of at most `n` slices. -/
noncomputable def leaves (split : List S → List Nat) : Nat → List S → List (List S)
  | 0, cl => [cl]
  | n + 1, cl => if Final split cl then [cl] else (arraySplit 0 cl (split cl)).flatMap (leaves split n)

open Classical in
/-- The number of turns, for clusters of at most `n` slices. -/
noncomputable def cost (split : List S → List Nat) : Nat → List S → Nat
  | 0, _ => 1
  | n + 1, cl => if Final split cl then 1 else 1 + ((arraySplit 0 cl (split cl)).map (cost split n)).sum

theorem cost_pos (split : List S → List Nat) (n : Nat) (cl : List S) : 0 < cost split n cl := by
  cases n with
  | zero => exact Nat.one_pos
  | succ n =>
    rw [cost]
    split <;> omega

theorem flatten_flatMap {A B : Type} (L : List A) (f : A → List (List B)) : (L.flatMap f).flatten = (L.map fun x => (f x).flatten).flatten := by
  induction L with
  | nil => rfl
  | cons a L ih => rw [List.flatMap_cons, List.flatten_append, ih, List.map_cons, List.flatten_cons]

theorem leaves_flatten (split : List S → List Nat) (n : Nat) (cl : List S) : (leaves split n cl).flatten = cl := by
  induction n generalizing cl with
  | zero => rw [leaves, List.flatten_cons, List.flatten_nil, List.append_nil]
  | succ n ih =>
    rw [leaves]
    split
    · rw [List.flatten_cons, List.flatten_nil, List.append_nil]
    · rw [flatten_flatMap]
      simp only [ih, List.map_id']
      exact arraySplit_flatten 0 cl _

/-- The positions of the cuts are inside. -/
def Inside (split : List S → List Nat) : Prop := ∀ cl, 5 ≤ cl.length → ∀ i ∈ split cl, 0 < i ∧ i < cl.length

theorem cut_lt {split : List S → List Nat} (hin : Inside split) {cl : List S} (hf : ¬ Final split cl) :
    ∀ g ∈ arraySplit 0 cl (split cl), g.length < cl.length := by
  rw [Final, not_or] at hf
  obtain ⟨i, idx, e⟩ := List.exists_cons_of_ne_nil hf.2
  obtain ⟨h0, h1⟩ := hin cl (by omega) i (by rw [e]; exact List.mem_cons_self)
  rw [e]
  exact arraySplit_lt cl i idx h0 h1

theorem leaves_final {split : List S → List Nat} (hin : Inside split) (n : Nat) (cl : List S) (hn : cl.length ≤ n) :
    ∀ g ∈ leaves split n cl, Final split g := by
  induction n generalizing cl with
  | zero =>
    intro g hg
    rw [leaves, List.mem_singleton] at hg
    exact Or.inl (by rw [hg]; omega)
  | succ n ih =>
    intro g hg
    rw [leaves] at hg
    split at hg
    · rw [List.mem_singleton] at hg
      rw [hg]
      assumption
    · rename_i hf
      obtain ⟨p, hp, hg⟩ := List.mem_flatMap.1 hg
      have := cut_lt hin hf p hp
      exact ih p (by omega) g hg

theorem leaves_leaf (split : List S → List Nat) (n : Nat) {cl : List S} (h : Final split cl) : leaves split n cl = [cl] := by
  cases n with
  | zero => rfl
  | succ n => rw [leaves, if_pos h]

theorem pieces_eq {split : List S → List Nat} (hin : Inside split) (fuel : Nat) (q : List (Nat × List S)) (hq : ∀ x ∈ q, x.2.length ≤ x.1)
    (hc : (q.map fun x => cost split x.1 x.2).sum ≤ fuel) :
    ∃ out, pieces split fuel (q.map Prod.snd) = .ok out ∧ out.Perm ((q.flatMap fun x => leaves split x.1 x.2).filter fun g => decide (3 ≤ g.length)) := by
  induction fuel generalizing q with
  | zero =>
    cases q with
    | nil => exact ⟨[], rfl, List.Perm.nil⟩
    | cons x q =>
      have := cost_pos split x.1 x.2
      rw [List.map_cons, List.sum_cons] at hc
      omega
  | succ fuel ih =>
    cases q with
    | nil => exact ⟨[], rfl, List.Perm.nil⟩
    | cons x q =>
      obtain ⟨n, cl⟩ := x
      have hq' : ∀ x ∈ q, x.2.length ≤ x.1 := fun x hx => hq x (List.mem_cons_of_mem _ hx)
      have hn : cl.length ≤ n := hq (n, cl) List.mem_cons_self
      have hpos := cost_pos split n cl
      rw [List.map_cons, List.sum_cons] at hc
      simp only at hc
      rw [List.map_cons, List.flatMap_cons, List.filter_append]
      simp only
      by_cases h3 : cl.length < 3
      · obtain ⟨out, h1, h2⟩ := ih q hq' (by omega)
        refine ⟨out, ?_, ?_⟩
        · rw [pieces, if_pos h3, h1]
        · rw [leaves_leaf split n (Or.inl (by omega)), List.filter_cons_of_neg (by simp only [decide_eq_true_eq]; omega), List.filter_nil, List.nil_append]
          exact h2
      by_cases hf : Final split cl
      · obtain ⟨out, h1, h2⟩ := ih q hq' (by omega)
        refine ⟨cl :: out, ?_, ?_⟩
        · rw [pieces, if_neg h3, if_pos (show cl.length < 5 ∨ split cl = [] from hf), h1]
          rfl
        · rw [leaves_leaf split n hf, List.filter_cons_of_pos (by simp only [decide_eq_true_eq]; omega), List.filter_nil]
          exact h2.cons cl
      · cases n with
        | zero => omega
        | succ n =>
          rw [cost, if_neg hf] at hc
          have hlt := cut_lt hin hf
          obtain ⟨out, h1, h2⟩ := ih (q ++ (arraySplit 0 cl (split cl)).map fun g => (n, g)) (by
            intro x hx
            rcases List.mem_append.1 hx with hx | hx
            · exact hq' x hx
            · obtain ⟨g, hg, rfl⟩ := List.mem_map.1 hx
              have := hlt g hg
              show g.length ≤ n
              omega) (by
            rw [List.map_append, List.sum_append, List.map_map]
            have : ((fun x : Nat × List S => cost split x.1 x.2) ∘ fun g => (n, g)) = cost split n := rfl
            rw [this]
            omega)
          refine ⟨out, ?_, ?_⟩
          · rw [pieces, if_neg h3, if_neg (show ¬ (cl.length < 5 ∨ split cl = []) from hf), ← h1, List.map_append, List.map_map]
            have : (Prod.snd ∘ fun g : List S => (n, g)) = id := rfl
            rw [this, List.map_id]
          · rw [leaves, if_neg hf]
            rw [List.flatMap_append, List.filter_append, List.flatMap_map] at h2
            exact h2.trans List.perm_append_comm

/-- C251. If the cuts are inside the clusters, the loop ends. The clusters that are treated are pieces such that the pieces of each given cluster, put
end to end, give it back: each slice of the pile is in one piece. All the pieces of three slices or more are treated, once, the others are not; none of them
is to be cut again. -/
theorem C251_pieces_partial {split : List S → List Nat} (hin : Inside split) (clusters : List (List S)) :
    ∃ groups : List (List (List S)), groups.map List.flatten = clusters ∧
      (∀ p ∈ groups, ∀ g ∈ p, g.length < 5 ∨ split g = []) ∧
      ∃ turns, ∀ fuel, turns ≤ fuel → ∃ out, pieces split fuel clusters = .ok out ∧ out.Perm (groups.flatten.filter fun g => decide (3 ≤ g.length)) := by
  refine ⟨clusters.map fun cl => leaves split cl.length cl, ?_, ?_, (clusters.map fun cl => cost split cl.length cl).sum, fun fuel hfuel => ?_⟩
  · rw [List.map_map]
    have : (List.flatten ∘ fun cl : List S => leaves split cl.length cl) = id := by
      funext cl
      exact leaves_flatten split _ cl
    rw [this, List.map_id]
  · intro p hp g hg
    obtain ⟨cl, _, rfl⟩ := List.mem_map.1 hp
    exact leaves_final hin cl.length cl le_rfl g hg
  · obtain ⟨out, h1, h2⟩ := pieces_eq hin fuel (clusters.map fun cl => (cl.length, cl)) (by
      intro x hx
      obtain ⟨cl, _, rfl⟩ := List.mem_map.1 hx
      exact le_rfl) (by
      rw [List.map_map]
      exact hfuel)
    refine ⟨out, ?_, ?_⟩
    · rw [← h1, List.map_map]
      have : (Prod.snd ∘ fun cl : List S => (cl.length, cl)) = id := rfl
      rw [this, List.map_id]
    · rw [List.flatMap_map] at h2
      rw [← List.flatMap_def]
      exact h2

/-- C251, the part that is false. If the change of position of a cluster is rounded to its first slice, the cluster is put back as a whole in the list: the
loop never ends. -/
theorem C251_first_counterexample (split : List S → List Nat) (cl : List S) (h5 : 5 ≤ cl.length) (h0 : split cl = [0]) (clusters : List (List S))
    (hc : cl ∈ clusters) (fuel : Nat) : pieces split fuel clusters = .error .diverge := by
  induction fuel generalizing clusters with
  | zero =>
    cases clusters with
    | nil => exact absurd hc List.not_mem_nil
    | cons c l => rfl
  | succ fuel ih =>
    cases clusters with
    | nil => exact absurd hc List.not_mem_nil
    | cons c l =>
      rw [pieces]
      by_cases e : c = cl
      · subst e
        rw [if_neg (by omega), if_neg (by rw [h0]; simp; omega)]
        refine ih _ (List.mem_append.2 (Or.inr ?_))
        rw [h0]
        simp [arraySplit]
      · have hl : cl ∈ l := by
          rcases List.mem_cons.1 hc with h | h
          · exact absurd h.symm e
          · exact h
        split
        · exact ih l hl
        · split
          · rw [ih l hl]
            rfl
          · exact ih _ (List.mem_append.2 (Or.inl hl))

/-! ## Blobs of a pile -/

/-- The blobs overlap. -/
def Overlap (a b : Blob) : Prop := |a.z - b.z| < a.s + b.s

theorem free_iff (out : List Blob) (i : Blob) (hi : 0 ≤ i.s) (ho : ∀ j ∈ out, 0 ≤ j.s) : free out i = true ↔ ∀ j ∈ out, ¬ Overlap i j := by
  rw [free, List.all_eq_true]
  refine forall₂_congr fun j hj => ?_
  have h0 : 0 ≤ i.s + j.s := add_nonneg hi (ho j hj)
  rw [Bool.not_eq_true', decide_eq_false_iff_not, Overlap, sq_lt_sq, abs_of_nonneg h0]

theorem noDuplicate_snoc (l : List Blob) (b : Blob) :
    noDuplicate (l ++ [b]) = if free (noDuplicate l) b then noDuplicate l ++ [b] else noDuplicate l := by
  rw [noDuplicate, List.foldl_append]
  rfl

theorem noDuplicate_sublist (l : List Blob) : (noDuplicate l).Sublist l := by
  induction l using List.reverseRecOn with
  | nil => exact List.Sublist.slnil
  | append_singleton l b ih =>
    rw [noDuplicate_snoc]
    split
    · exact ih.append (List.Sublist.refl _)
    · exact ih.trans (List.sublist_append_left _ _)

theorem noDuplicate_prefix (l r : List Blob) : noDuplicate l <+: noDuplicate (l ++ r) := by
  induction r using List.reverseRecOn with
  | nil =>
    rw [List.append_nil]
    exact List.prefix_refl _
  | append_singleton r b ih =>
    rw [← List.append_assoc, noDuplicate_snoc]
    split
    · exact ih.trans (List.prefix_append _ _)
    · exact ih

/-- C251. The blobs kept are some of the blobs, in order; no two of them overlap; the first one, the most intense, is kept; and each blob is kept unless it
overlaps a blob before it that is kept. -/
theorem C251_overlap (blobs : List Blob) (hs : ∀ b ∈ blobs, 0 ≤ b.s) :
    (noDuplicate blobs).Sublist blobs ∧ (noDuplicate blobs).Pairwise (fun a b => ¬ Overlap a b) ∧ (noDuplicate blobs).head? = blobs.head? ∧
      ∀ l b r, blobs = l ++ b :: r → (∃ out, noDuplicate l ++ out = noDuplicate blobs) ∧
        ((∃ j ∈ noDuplicate l, Overlap b j) ∨ (noDuplicate l ++ [b]) <+: noDuplicate blobs) := by
  have hpair : ∀ l : List Blob, (∀ b ∈ l, 0 ≤ b.s) → (noDuplicate l).Pairwise (fun a b => ¬ Overlap a b) := by
    intro l hl
    induction l using List.reverseRecOn with
    | nil => exact List.Pairwise.nil
    | append_singleton l b ih =>
      have ih := ih fun b hb => hl b (List.mem_append.2 (Or.inl hb))
      rw [noDuplicate_snoc]
      split
      · rename_i hf
        have hsub := noDuplicate_sublist l
        rw [free_iff _ _ (hl b (by simp)) fun j hj => hl j (List.mem_append.2 (Or.inl (hsub.subset hj)))] at hf
        refine List.pairwise_append.2 ⟨ih, List.pairwise_singleton _ _, fun a ha c hc => ?_⟩
        rw [List.mem_singleton.1 hc]
        intro ho
        refine hf a ha ?_
        rw [Overlap, abs_sub_comm, add_comm]
        exact ho
      · exact ih
  refine ⟨noDuplicate_sublist blobs, hpair blobs hs, ?_, ?_⟩
  · cases blobs with
    | nil => rfl
    | cons a l =>
      have h1 : noDuplicate [a] = [a] := rfl
      obtain ⟨t, ht⟩ := noDuplicate_prefix [a] l
      rw [List.singleton_append] at ht
      rw [← ht, h1]
      rfl
  · rintro l b r rfl
    obtain ⟨out, ho⟩ := noDuplicate_prefix l (b :: r)
    refine ⟨⟨out, ho⟩, ?_⟩
    have hsub := noDuplicate_sublist l
    by_cases hf : free (noDuplicate l) b = true
    · refine Or.inr ?_
      have h1 := noDuplicate_prefix (l ++ [b]) r
      rw [noDuplicate_snoc, if_pos hf, List.append_assoc, List.singleton_append] at h1
      exact h1
    · refine Or.inl ?_
      rw [free_iff _ _ (hs b (by simp)) fun j hj => hs j (List.mem_append.2 (Or.inl (hsub.subset hj)))] at hf
      by_contra hno
      exact hf fun j hj ho => hno ⟨j, hj, ho⟩

/-- `np.rint`: a nearest integer. -/
def Rounds (rnd : ℚ → Int) : Prop := ∀ z, |(rnd z : ℚ) - z| ≤ 1 / 2

/-- C251. A blob that is rounded to a slice before the one after the end gives a particle, extrapolated from the slice of the pile that is the nearest. -/
theorem C251_nearest_partial {rnd : ℚ → Int} (hr : Rounds rnd) (cl grad : List ℚ) (hg : grad.length = cl.length) (hne : cl ≠ []) (z : ℚ)
    (hz : rnd z ≤ cl.length) :
    ∃ (i : Nat) (c g : ℚ), cl[i]? = some c ∧ grad[i]? = some g ∧ (∀ k < cl.length, |z - i| ≤ |z - k|) ∧ particle rnd cl grad z = .ok (c + g * (z - i)) := by
  have hn : 0 < cl.length := List.length_pos_iff.2 hne
  have hlt : (slice rnd cl.length z).toNat < cl.length ∧ 0 ≤ slice rnd cl.length z := by
    unfold slice
    simp only
    split <;> split <;> omega
  obtain ⟨h1, h2⟩ := hlt
  refine ⟨(slice rnd cl.length z).toNat, cl[(slice rnd cl.length z).toNat], grad[(slice rnd cl.length z).toNat], List.getElem?_eq_getElem h1,
    List.getElem?_eq_getElem (by omega), ?_, ?_⟩
  · intro k hk
    have hcast : (((slice rnd cl.length z).toNat : Nat) : ℚ) = (slice rnd cl.length z : ℚ) := by
      rw [← Int.cast_natCast, Int.toNat_of_nonneg h2]
    rw [hcast]
    have hrz := abs_le.1 (hr z)
    have hkq : (k : ℚ) + 1 ≤ cl.length := by exact_mod_cast hk
    have hk0 : (0 : ℚ) ≤ k := Nat.cast_nonneg k
    unfold slice
    simp only
    by_cases he : rnd z = cl.length
    · rw [if_pos he, if_neg (by omega)]
      rw [he, Int.cast_natCast] at hrz
      push_cast
      rw [abs_of_nonneg (by linarith), abs_of_nonneg (by linarith)]
      linarith
    · rw [if_neg he]
      by_cases hneg : rnd z < 0
      · rw [if_pos hneg]
        have : (rnd z : ℚ) ≤ -1 := by exact_mod_cast (show rnd z ≤ -1 by omega)
        push_cast
        rw [abs_of_nonpos (by linarith), abs_of_nonpos (by linarith)]
        linarith
      · rw [if_neg hneg]
        rcases lt_trichotomy (rnd z) (k : Int) with h | h | h
        · have h' : (rnd z : ℚ) + 1 ≤ k := by exact_mod_cast h
          rw [abs_of_nonpos (show z - k ≤ 0 by linarith)]
          exact abs_le.2 ⟨by linarith, by linarith⟩
        · rw [h, Int.cast_natCast]
        · have h' : (k : ℚ) + 1 ≤ rnd z := by exact_mod_cast h
          rw [abs_of_nonneg (show 0 ≤ z - k by linarith)]
          exact abs_le.2 ⟨by linarith, by linarith⟩
  · have hcast : (((slice rnd cl.length z).toNat : Nat) : ℚ) = (slice rnd cl.length z : ℚ) := by
      rw [← Int.cast_natCast, Int.toNat_of_nonneg h2]
    rw [particle]
    rw [List.getElem?_eq_getElem h1, List.getElem?_eq_getElem (show _ < grad.length by omega), hcast]

/-- C251, the part that is false. A blob rounded beyond the slice after the end is an `IndexError`. -/
theorem C251_beyond_counterexample (rnd : ℚ → Int) (cl grad : List ℚ) (z : ℚ) (hz : (cl.length : Int) < rnd z) :
    particle rnd cl grad z = .error .outOfRange := by
  have h1 : slice rnd cl.length z = rnd z := by
    unfold slice
    simp only
    rw [if_neg (by omega), if_neg (by omega)]
  rw [particle, h1]
  rw [List.getElem?_eq_none (by omega)]

example : Inside (fun cl : List Nat => if 6 ≤ cl.length then [3] else []) ∧
    pieces (fun cl : List Nat => if 6 ≤ cl.length then [3] else []) 9 [[1, 2, 3, 4, 5, 6, 7, 8], [9, 9]] = .ok [[1, 2, 3], [4, 5, 6, 7, 8]] := by
  refine ⟨fun cl h i hi => ?_, by decide⟩
  simp only at hi
  split at hi
  · rw [List.mem_singleton] at hi
    omega
  · exact absurd hi List.not_mem_nil

example : Rounds (fun z => round z) := fun z => by
  rw [abs_sub_comm]
  exact abs_sub_round z

example : (noDuplicate [⟨5, 2⟩, ⟨6, 1⟩, ⟨9, 1⟩]).map Blob.z = [5, 9] := by decide +kernel

end Piles
end Py
end Colloids
