import Verif.DynClusters.Lemmas
import Mathlib.Tactic.FieldSimp
import Mathlib.Tactic.Linarith

/-! # Lemmas on the linking of the clusters -/

namespace Colloids
namespace DynClusters
open Dyn

/-- Number of common elements. -/
def nCommon (K S : List Nat) : Nat := (K.filter (fun x => decide (x ∈ S))).length

theorem union_inter_length : ∀ (f g : Nat) (l l' : List Nat), l.length + l'.length ≤ f →
    l.length + l'.length < g →
    (setUnionAux g l l').length + (Boo.setIntersectionAux f l l').length = l.length + l'.length := by
  intro f
  induction f with
  | zero =>
    intro g l l' h1 h2
    have hl : l = [] := List.length_eq_zero_iff.1 (by omega)
    have hl' : l' = [] := List.length_eq_zero_iff.1 (by omega)
    subst hl hl'
    obtain ⟨g, rfl⟩ : ∃ k, g = k + 1 := ⟨g - 1, by omega⟩
    simp [setUnionAux, Boo.setIntersectionAux]
  | succ f ih =>
    intro g l l' h1 h2
    obtain ⟨g, rfl⟩ : ∃ k, g = k + 1 := ⟨g - 1, by omega⟩
    match l, l' with
    | [], l' => simp [setUnionAux, Boo.setIntersectionAux]
    | a :: l, [] => simp [setUnionAux, Boo.setIntersectionAux]
    | a :: l, b :: l' =>
      simp only [List.length_cons] at h1 h2
      simp only [setUnionAux, Boo.setIntersectionAux]
      split
      · have := ih g l (b :: l') (by simp; omega) (by simp; omega)
        simp only [List.length_cons] at this ⊢
        omega
      · split
        · have := ih g (a :: l) l' (by simp; omega) (by simp; omega)
          simp only [List.length_cons] at this ⊢
          omega
        · have := ih g l l' (by omega) (by omega)
          simp only [List.length_cons] at this ⊢
          omega

theorem inter_length {K S : List Nat} (hK : K.Pairwise (· < ·)) (hS : S.Pairwise (· < ·)) :
    (Boo.setIntersection K S).length = nCommon K S := by
  unfold nCommon
  apply List.Perm.length_eq
  have hn : ∀ {l : List Nat}, l.Pairwise (· < ·) → l.Nodup := fun h => h.imp (fun h => Nat.ne_of_lt h)
  rw [List.perm_ext_iff_of_nodup (hn (setIntersection_sorted hK)) ((hn hK).filter _)]
  intro x
  rw [mem_setIntersection' hK hS, List.mem_filter]
  simp

theorem union_length {K S : List Nat} (hK : K.Pairwise (· < ·)) (hS : S.Pairwise (· < ·)) :
    (setUnion K S).length + nCommon K S = K.length + S.length := by
  rw [← inter_length hK hS]
  exact union_inter_length _ _ _ _ le_rfl (Nat.lt_succ_self _)

/-- The distance of two clusters: (number of elements of both) / (number of common elements) - 2. -/
def clusterDist (K S : List Nat) : ℚ := ((K.length + S.length : Nat) : ℚ) / (nCommon K S : ℚ) - 2

theorem dist_eq {K S : List Nat} (hK : K.Pairwise (· < ·)) (hS : S.Pairwise (· < ·))
    (hc : nCommon K S ≠ 0) :
    ((setUnion K S).length : ℚ) / ((Boo.setIntersection K S).length : ℚ) - 1 = clusterDist K S := by
  rw [inter_length hK hS]
  unfold clusterDist
  rw [← union_length hK hS]
  have : (nCommon K S : ℚ) ≠ 0 := by exact_mod_cast hc
  rw [Nat.cast_add, add_div, div_self this]
  ring

/-- Close enough to be linked. -/
def Near (K S : List Nat) : Prop := K.length + S.length < 4 * nCommon K S

theorem near_iff {K S : List Nat} : Near K S ↔ nCommon K S ≠ 0 ∧ clusterDist K S < 2 := by
  unfold Near clusterDist
  by_cases hc : nCommon K S = 0
  · simp [hc]
  · have : (0 : ℚ) < (nCommon K S : ℚ) := by exact_mod_cast Nat.pos_of_ne_zero hc
    rw [sub_lt_iff_lt_add, div_lt_iff₀ this]
    constructor
    · intro h
      refine ⟨hc, ?_⟩
      norm_num
      exact_mod_cast h
    · rintro ⟨_, h⟩
      norm_num at h
      exact_mod_cast h

theorem dist_le_iff {K S K' S' : List Nat} (h : nCommon K S ≠ 0) (h' : nCommon K' S' ≠ 0) :
    clusterDist K' S' ≤ clusterDist K S ↔
      (K'.length + S'.length) * nCommon K S ≤ (K.length + S.length) * nCommon K' S' := by
  unfold clusterDist
  have p : (0 : ℚ) < (nCommon K S : ℚ) := by exact_mod_cast Nat.pos_of_ne_zero h
  have p' : (0 : ℚ) < (nCommon K' S' : ℚ) := by exact_mod_cast Nat.pos_of_ne_zero h'
  rw [sub_le_sub_iff_right, div_le_div_iff₀ p' p]
  exact_mod_cast Iff.rfl

theorem followStep_mem {K : List Nat} (hK : K.Pairwise (· < ·)) {m : List (ℚ × Nat)} {S : List Nat × Nat}
    (hS : S.1.Pairwise (· < ·)) {x : ℚ × Nat} :
    x ∈ followStep K m S ↔ x ∈ m ∨ (Near K S.1 ∧ x = (clusterDist K S.1, S.2)) := by
  unfold followStep
  simp only
  by_cases hi : (Boo.setIntersection K S.1).isEmpty
  · rw [if_pos hi]
    have h0 : nCommon K S.1 = 0 := by
      rw [← inter_length hK hS]
      simpa using hi
    rw [near_iff]
    simp [h0]
  · rw [if_neg hi]
    have h0 : nCommon K S.1 ≠ 0 := by
      rw [← inter_length hK hS]
      intro h
      exact hi (by simpa using h)
    rw [dist_eq hK hS h0]
    by_cases hd : clusterDist K S.1 < 2
    · rw [if_pos hd, mem_mmInsert, near_iff]
      simp [h0, hd, or_comm]
    · rw [if_neg hd, near_iff]
      simp [hd]

theorem mem_fold {K : List Nat} (hK : K.Pairwise (· < ·)) (ss : List (List Nat × Nat))
    (hs : ∀ S ∈ ss, S.1.Pairwise (· < ·)) (m : List (ℚ × Nat)) {x : ℚ × Nat} :
    x ∈ ss.foldl (followStep K) m ↔ x ∈ m ∨ ∃ S ∈ ss, Near K S.1 ∧ x = (clusterDist K S.1, S.2) := by
  induction ss generalizing m with
  | nil => simp
  | cons S ss ih =>
    rw [List.foldl_cons, ih (fun S h => hs S (by simp [h])), followStep_mem hK (hs S (by simp))]
    simp only [List.mem_cons, exists_eq_or_imp, or_assoc]

theorem candidate_iff {ms ms' : List (List Nat)} (h : ∀ K ∈ ms, K.Pairwise (· < ·))
    (h' : ∀ K ∈ ms', K.Pairwise (· < ·)) {p q : Nat} {d : ℚ} :
    Candidate (followers ms ms') p d q ↔ ∃ K S, ms[p]? = some K ∧ ms'[q]? = some S ∧ Near K S ∧
      d = clusterDist K S := by
  unfold Candidate followers
  rw [List.getElem?_map]
  have hz : ∀ S ∈ ms'.zipIdx, S.1.Pairwise (· < ·) := by
    rintro ⟨S, i⟩ hS
    rw [List.mem_zipIdx_iff_getElem?] at hS
    exact h' _ (List.mem_of_getElem? hS)
  constructor
  · rintro ⟨row, h1, h2⟩
    rw [Option.map_eq_some_iff] at h1
    obtain ⟨K, hK, rfl⟩ := h1
    rw [mem_fold (h K (List.mem_of_getElem? hK)) _ hz] at h2
    rcases h2 with h2 | ⟨⟨S, i⟩, hS, hn, e⟩
    · simp at h2
    · rw [List.mem_zipIdx_iff_getElem?] at hS
      simp only [Prod.mk.injEq] at e hS hn
      obtain ⟨rfl, rfl⟩ := e
      exact ⟨K, S, hK, hS, hn, rfl⟩
  · rintro ⟨K, S, hK, hS, hn, rfl⟩
    refine ⟨_, by rw [hK]; rfl, ?_⟩
    rw [mem_fold (h K (List.mem_of_getElem? hK)) _ hz]
    exact Or.inr ⟨(S, q), List.mem_zipIdx_iff_getElem?.2 hS, hn, rfl⟩

/-- The successive arguments of `push_back`. -/
def histOf (members : List (List (List Nat))) (k : Nat) : List (Followers ℚ × Nat) :=
  (List.range k).map (fun t => (followers (members.getD t []) (members.getD (t + 1) []),
    (members.getD (t + 1) []).length))

theorem getD_of {α : Type} {l : List α} {i : Nat} {x d : α} (h : l[i]? = some x) : l.getD i d = x := by
  rw [List.getD_eq_getElem?_getD, h]
  rfl

theorem getR_getD {l : List (List (List Nat))} {i : Nat} (h : i < l.length) :
    getR l i = .ok (l.getD i []) := by
  rw [getR_of_lt h, getD_of (List.getElem?_eq_getElem h)]

theorem track_eq {members : List (List (List Nat))} (hne : members ≠ []) :
    track members members.length = TrajMap.run (members.getD 0 []).length (histOf members (members.length - 1)) := by
  have hpos := List.length_pos_iff.2 hne
  unfold track TrajMap.run histOf
  rw [getR_getD hpos, ok_bind, List.foldlM_map]
  have key : ∀ (l : List Nat) (tm : TrajMap), (∀ t ∈ l, t + 1 < members.length) →
      l.foldlM (fun (tm : TrajMap) (t : Nat) => do
        let ms ← getR members t
        let ms' ← getR members (t + 1)
        tm.pushBack (followers ms ms') ms'.length) tm
      = l.foldlM (fun (tm : TrajMap) (t : Nat) =>
        tm.pushBack (followers (members.getD t []) (members.getD (t + 1) [])) (members.getD (t + 1) []).length)
        tm := by
    intro l
    induction l with
    | nil => intro tm _; rfl
    | cons t l ih =>
      intro tm h
      have ht := h t (by simp)
      rw [List.foldlM_cons, List.foldlM_cons, getR_getD (show t < _ by omega), ok_bind, getR_getD ht, ok_bind]
      congr 1
      funext tm'
      exact ih tm' (fun x hx => h x (by simp [hx]))
  exact key _ _ (fun t ht => by have := List.mem_range.1 ht; omega)

/-- All the clusters are sets. -/
def AllSets (members : List (List (List Nat))) : Prop := ∀ ms ∈ members, ∀ K ∈ ms, K.Pairwise (· < ·)

theorem AllSets.getD {members : List (List (List Nat))} (h : AllSets members) (t : Nat) :
    ∀ K ∈ members.getD t [], K.Pairwise (· < ·) := by
  intro K hK
  by_cases ht : t < members.length
  · rw [getD_of (List.getElem?_eq_getElem ht)] at hK
    exact h _ (List.getElem_mem ht) K hK
  · rw [List.getD_eq_getElem?_getD, List.getElem?_eq_none (by omega)] at hK
    simp at hK

theorem histOf_succ (members : List (List (List Nat))) (k : Nat) :
    histOf members (k + 1) = histOf members k ++ [(followers (members.getD k []) (members.getD (k + 1) []),
      (members.getD (k + 1) []).length)] := by
  unfold histOf
  rw [List.range_succ, List.map_append]
  rfl

theorem histOf_sizes (members : List (List (List Nat))) (k : Nat) :
    (members.getD 0 []).length :: (histOf members k).map Prod.snd
      = (List.range (k + 1)).map (fun t => (members.getD t []).length) := by
  unfold histOf
  rw [List.range_succ_eq_map]
  simp [Function.comp_def]

theorem histOf_valid {members : List (List (List Nat))} (h : AllSets members) (k : Nat) :
    ValidHist (members.getD 0 []).length (histOf members k) := by
  induction k with
  | zero => simp [histOf, ValidHist]
  | succ k ih =>
    rw [histOf_succ, validHist_concat]
    refine ⟨ih, ?_, ?_⟩
    · have : ∀ (l : List Nat) (hl : l ≠ []), l = (List.range (k + 1)).map (fun t => (members.getD t []).length) →
          l.getLast hl = (members.getD k []).length := by
        rintro l hl rfl
        simp [List.getLast_eq_getElem]
      rw [this _ _ (histOf_sizes members k)]
      simp [followers]
    · intro p d q hc
      obtain ⟨K, S, _, hS, _⟩ := (candidate_iff (h.getD k) (h.getD (k + 1))).1 hc
      exact (List.getElem?_eq_some_iff.1 hS).1

/-- The frames of a prefix of the history stay. -/
theorem run_prefix {n : Nat} {l1 l2 : List (Followers ℚ × Nat)} {tm : TrajMap}
    (h : TrajMap.run n (l1 ++ l2) = .ok tm) : ∃ tm1, TrajMap.run n l1 = .ok tm1 ∧
      ∀ s p tr, s < tm1.bm.length → (Linked tm s p tr ↔ Linked tm1 s p tr) := by
  induction l2 using List.reverseRecOn generalizing tm with
  | nil =>
    rw [List.append_nil] at h
    exact ⟨tm, h, fun _ _ _ _ => Iff.rfl⟩
  | append_singleton l x ih =>
    rw [← List.append_assoc] at h
    obtain ⟨tm0, h0, hp⟩ := TrajMap.run_concat.1 h
    obtain ⟨tm1, h1, h2⟩ := ih h0
    refine ⟨tm1, h1, ?_⟩
    intro s p tr hs
    have hle : tm1.bm.length ≤ tm0.bm.length := by
      have a := (TrajMap.run_inv h1).len
      have b := (TrajMap.run_inv h0).len
      rw [a, b]
      simp
    rw [(C02_stable_greedy n _ tm0 tm x.1 x.2 h0 hp).1 s p tr (by omega), h2 s p tr hs]

theorem run_length {n : Nat} {l : List (Followers ℚ × Nat)} {tm : TrajMap} (h : TrajMap.run n l = .ok tm) :
    tm.bm.length = l.length + 1 := by
  rw [(TrajMap.run_inv h).len]
  simp

/-- One step of the linking, in the final map. -/
theorem track_step {members : List (List (List Nat))} (h : AllSets members) {k t : Nat} (ht : t < k) {tm : TrajMap}
    (hr : TrajMap.run (members.getD 0 []).length (histOf members k) = .ok tm) :
    (∀ p q tr, Linked tm t p tr → Linked tm (t + 1) q tr → ∃ K S, (members.getD t [])[p]? = some K ∧
      (members.getD (t + 1) [])[q]? = some S ∧ Near K S) ∧
    (∀ p q K S, (members.getD t [])[p]? = some K → (members.getD (t + 1) [])[q]? = some S → Near K S →
      ∃ p' q' K' S' tr, (members.getD t [])[p']? = some K' ∧ (members.getD (t + 1) [])[q']? = some S' ∧
        Near K' S' ∧ clusterDist K' S' ≤ clusterDist K S ∧ Linked tm t p' tr ∧ Linked tm (t + 1) q' tr ∧
        (p' = p ∨ q' = q)) := by
  have hsplit : histOf members k = histOf members (t + 1) ++ (histOf members k).drop (t + 1) := by
    have : (histOf members k).take (t + 1) = histOf members (t + 1) := by
      unfold histOf
      rw [← List.map_take, List.take_range, Nat.min_eq_left (by omega)]
    rw [← this, List.take_append_drop]
  rw [hsplit] at hr
  obtain ⟨tm1, hr1, hl1⟩ := run_prefix hr
  have hr1' := hr1
  rw [histOf_succ] at hr1'
  obtain ⟨tm0, hr0, hp⟩ := TrajMap.run_concat.1 hr1'
  have len0 : tm0.bm.length = t + 1 := by
    rw [run_length hr0]
    simp [histOf]
  have len1 : tm1.bm.length = t + 2 := by
    rw [run_length hr1]
    simp [histOf]
  have hC := C02_stable_greedy _ _ tm0 tm1 _ _ hr0 hp
  simp only [len0, Nat.add_sub_cancel] at hC
  obtain ⟨c1, -, -, c2, c3, -, -⟩ := hC
  have a0 : ∀ p tr, Linked tm t p tr ↔ Linked tm0 t p tr := fun p tr => by
    rw [hl1 t p tr (by omega), c1 t p tr (by omega)]
  have a1 : ∀ p tr, Linked tm (t + 1) p tr ↔ Linked tm1 (t + 1) p tr := fun p tr =>
    hl1 (t + 1) p tr (by omega)
  obtain ⟨z1, z2, z3, z4, z5⟩ := C01_one_to_one _ _ tm0 hr0
  constructor
  · intro p q tr h1 h2
    rw [a0] at h1
    rw [a1] at h2
    obtain ⟨p', d, h3, h4⟩ := c2 q tr h2 ((z5 tr).2 ⟨t, p, h1⟩)
    have := z4 t p p' tr h1 h3
    subst this
    obtain ⟨K, S, hK, hS, hn, _⟩ := (candidate_iff (h.getD t) (h.getD (t + 1))).1 h4
    exact ⟨K, S, hK, hS, hn⟩
  · intro p q K S hK hS hn
    have hpl : p < (members.getD t []).length := (List.getElem?_eq_some_iff.1 hK).1
    obtain ⟨tr, htr, _⟩ := z2 t (members.getD t []).length (by
      rw [histOf_sizes, List.getElem?_map, List.getElem?_range (by omega)]
      rfl) p hpl
    obtain ⟨p', tr', d', q', h1, h2, h3, h4, h5⟩ := c3 p tr (clusterDist K S) q htr
      ((candidate_iff (h.getD t) (h.getD (t + 1))).2 ⟨K, S, hK, hS, hn, rfl⟩)
    obtain ⟨K', S', hK', hS', hn', rfl⟩ := (candidate_iff (h.getD t) (h.getD (t + 1))).1 h2
    refine ⟨p', q', K', S', tr', hK', hS', hn', h4, (a0 _ _).2 h1, (a1 _ _).2 h3, ?_⟩
    rcases h5 with h5 | h5
    · exact Or.inr h5
    · subst h5
      exact Or.inl (z4 t p' p tr' h1 htr)

end DynClusters
end Colloids
