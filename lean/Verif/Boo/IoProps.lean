import Verif.Boo.IoLemmas

/-! # Text files of bond order coefficients: C58 -/

namespace Colloids
namespace Boo

/-- A text file of `k` tensors loaded for a set of `n ≥ k` particles: the first `k` tensors are those
of the file (up to the rounding of their decimal representation), the following ones are the previous contents of the array, null if
there were none. -/
theorem C58_qlm_partial (round : ℝ → ℝ) (n : Nat) (boos old : List BooData)
    (hb : ∀ q ∈ boos, q.length = 36) (hn : boos.length ≤ n) :
    ∃ res, loadQlm n (boos.flatMap (printBoo round)) old = .ok res ∧ res.length = n ∧
      (∀ (p : Nat) (q : BooData), boos[p]? = some q →
        res[p]? = some (q.map (fun z => ⟨round z.re, round z.im⟩))) ∧
      (∀ p, boos.length ≤ p → p < n → res[p]? = some (old[p]?.getD (List.replicate 36 0))) := by
  have hlen : (resizeTo blank n old).length = n := by
    simp [resizeTo]; omega
  have hfuel : boos.length < (boos.flatMap (printBoo round)).length + 1 := by
    have : boos.length ≤ (boos.flatMap (printBoo round)).length := by
      clear hn
      induction boos with
      | nil => simp
      | cons q boos ih =>
        have := ih (fun q hq => hb q (by simp [hq]))
        rw [List.flatMap_cons, List.length_append, List.length_cons]
        have h36 := hb q (by simp)
        have : 1 ≤ (printBoo round q).length := by
          cases q with
          | nil => simp at h36
          | cons z q => simp [printBoo]
        omega
    omega
  have e := loadFrom_eq round boos hb _ hfuel 0 (resizeTo blank n old)
  unfold loadQlm
  rw [e, if_pos (by left; omega)]
  refine ⟨_, rfl, ?_, ?_, ?_⟩
  · simp [hlen]; omega
  · intro p q hp
    have hlt := (List.getElem?_eq_some_iff.1 hp).1
    simp only [List.take_zero, List.nil_append]
    rw [List.getElem?_append_left (by simpa using hlt), List.getElem?_map, hp]
    rfl
  · intro p h1 h2
    simp only [List.take_zero, List.nil_append, Nat.zero_add]
    rw [List.getElem?_append_right (by simpa using h1), List.getElem?_drop, List.length_map,
      show boos.length + (p - boos.length) = p by omega]
    unfold resizeTo
    by_cases ho : p < old.length
    · rw [List.getElem?_append_left (by simp; omega), List.getElem?_take_of_lt h2]
      simp [ho]
    · rw [List.getElem?_append_right (by simp; omega), List.getElem?_replicate,
        if_pos (by simp; omega)]
      simp [List.getElem?_eq_none (Nat.le_of_not_lt ho), blank]

/-- A text file of more tensors than there are particles overruns the array. -/
theorem C58_qlm_overrun (round : ℝ → ℝ) (n : Nat) (boos old : List BooData)
    (hb : ∀ q ∈ boos, q.length = 36) (hn : n < boos.length) :
    loadQlm n (boos.flatMap (printBoo round)) old = .error .ub := by
  have hlen : (resizeTo blank n old).length = n := by
    simp [resizeTo]; omega
  have hfuel : boos.length < (boos.flatMap (printBoo round)).length + 1 := by
    have : boos.length ≤ (boos.flatMap (printBoo round)).length := by
      clear hn
      induction boos with
      | nil => simp
      | cons q boos ih =>
        have := ih (fun q hq => hb q (by simp [hq]))
        rw [List.flatMap_cons, List.length_append, List.length_cons]
        have h36 := hb q (by simp)
        have : 1 ≤ (printBoo round q).length := by
          cases q with
          | nil => simp at h36
          | cons z q => simp [printBoo]
        omega
    omega
  have e := loadFrom_eq round boos hb _ hfuel 0 (resizeTo blank n old)
  unfold loadQlm
  rw [e, if_neg]
  rintro (h | h)
  · omega
  · subst h; simp at hn

/-- The file that `exportQ6m` writes for a set of particles cannot be loaded for the same set:
`load_q6m` goes one line too far, beyond the end of the array. -/
theorem C58_q6m_counterexample (round : ℂ → ℂ) (boos old : List BooData)
    (hb : ∀ q ∈ boos, q.length = 36) (ho : ∀ q ∈ old, q.length = 36) :
    ∃ file, exportQ6m round boos = .ok file ∧ loadQ6m boos.length file old = .error .ub := by
  refine ⟨_, exportQ6m_eq round boos hb, ?_⟩
  have hlen : (resizeTo blank boos.length old).length = boos.length := by
    simp [resizeTo]; omega
  have hmem : ∀ q ∈ resizeTo blank boos.length old, q.length = 36 := by
    intro q hq
    unfold resizeTo at hq
    rcases List.mem_append.1 hq with h | h
    · exact ho q (List.mem_of_mem_take h)
    · rw [(List.mem_replicate.1 h).2]; simp [blank]
  have := q6mLoop_eq (boos.map (fun q => (List.range 7).map (fun m => round (st q 6 m))))
    (by simp) (boos.length + 1) 0 0 (resizeTo blank boos.length old) hmem (by omega) (by omega)
  rw [List.flatMap_map] at this
  unfold loadQ6m
  rw [List.replicate_zero, List.nil_append] at this
  rw [this, if_neg (by simp [hlen])]

/-- The same file can be loaded for a bigger set: the coefficients of degree 6 and order 0 to 6 of
the first particles are those exported (up to rounding), all others are unchanged.
Missing for the full claim (the round trip for the same set): it is undefined behaviour. -/
theorem C58_q6m_partial (round : ℂ → ℂ) (n : Nat) (boos old : List BooData)
    (hb : ∀ q ∈ boos, q.length = 36) (ho : ∀ q ∈ old, q.length = 36) (hold : old.length = n)
    (hn : boos.length < n) :
    ∃ file res, exportQ6m round boos = .ok file ∧ loadQ6m n file old = .ok res ∧ res.length = n ∧
      (∀ (p : Nat) (q q' : BooData), boos[p]? = some q → old[p]? = some q' →
        ∃ r : BooData, res[p]? = some r ∧ r.length = 36 ∧
          (∀ m : Nat, m ≤ 6 → ∃ z, coef q 6 m = .ok z ∧ coef r 6 m = .ok (round z)) ∧
          (∀ l m : Nat, 2 ∣ l → l ≤ 10 → m ≤ l → l ≠ 6 → coef r l m = coef q' l m)) ∧
      (∀ p, boos.length ≤ p → res[p]? = old[p]?) := by
  have hres : resizeTo blank n old = old := by
    unfold resizeTo
    rw [hold, Nat.sub_self, ← hold, List.take_length]; simp
  have := q6mLoop_eq (boos.map (fun q => (List.range 7).map (fun m => round (st q 6 m))))
    (by simp) (n + 1) 0 0 old ho (by omega) (by omega)
  rw [List.flatMap_map, List.replicate_zero, List.nil_append, List.length_map,
    if_pos (by omega), List.take_zero, List.nil_append, List.drop_zero, Nat.zero_add] at this
  refine ⟨_, _, exportQ6m_eq round boos hb,
    (by unfold loadQ6m; rw [hres]; exact this), ?_, ?_, ?_⟩
  · simp; omega
  · intro p q q' hq hq'
    have hlt := (List.getElem?_eq_some_iff.1 hq).1
    have h36 := hb q (List.mem_of_getElem? hq)
    have h36' := ho q' (List.mem_of_getElem? hq')
    refine ⟨over q' 0 ((List.range 7).map (fun m => round (st q 6 m))), ?_, ?_, ?_, ?_⟩
    · rw [List.getElem?_append_left (by simp; omega), List.getElem?_zipWith, List.getElem?_map, hq, hq']
      rfl
    · rw [over_length, h36']
    · intro m hm
      refine ⟨st q 6 m, ?_, ?_⟩
      · rw [coef_eq h36 (by decide) (by decide) (by omega)]; simp [cf]
      · unfold coef
        rw [if_pos (by omega), Int.toNat_natCast, getR_ok, over_get _ _ _ _ (by simp; omega)]
        rw [if_pos (by simp [slot]; omega)]
        have e : slot 6 m - (0 + 9) = m := by unfold slot; omega
        rw [e, List.getElem?_map, List.getElem?_range (by omega)]
        rfl
    · intro l m h2 hl hm h6
      unfold coef
      rw [if_pos (by omega), if_pos (by omega), Int.toNat_natCast]
      unfold getR
      rw [over_get _ _ _ _ (by simp; omega), if_neg]
      intro hc
      simp only [List.length_map, List.length_range] at hc
      have e : slot l m = slot 6 (slot l m - 9) := by
        have : ∀ k, slot 6 k = k + 9 := by intro k; rfl
        rw [this]; omega
      have := slot_inj h2 (by decide) hm (by omega) e
      omega
  · intro p hp
    by_cases hlt : p < n
    · rw [List.getElem?_append_right (by simp; omega), List.getElem?_drop]
      congr 1
      simp; omega
    · rw [List.getElem?_eq_none (by simp; omega), List.getElem?_eq_none (by omega)]

/-- The constructor from a string writes 36 coefficients in 16 elements, whatever the string. -/
theorem C58_string_counterexample (values : Nat → ℂ) : ofString values = .error .ub := by
  unfold ofString
  have : ∀ k, k ≤ 16 → ∃ q : BooData, q.length = 16 ∧
      (List.range k).foldlM (fun q i => setR q i (values i)) (List.replicate 16 (0 : ℂ)) = .ok q := by
    intro k
    induction k with
    | zero => intro _; exact ⟨_, by simp, rfl⟩
    | succ k ih =>
      intro hk
      obtain ⟨q, hq, e⟩ := ih (by omega)
      rw [List.range_succ, List.foldlM_append, e]
      simp only [ok_bind, List.foldlM_cons, List.foldlM_nil]
      unfold setR
      rw [if_pos (by omega)]
      exact ⟨_, by rw [List.length_set]; exact hq, rfl⟩
  obtain ⟨q, hq, e⟩ := this 16 le_rfl
  rw [show List.range 36 = List.range 16 ++ 16 :: List.range' 17 19 by decide, List.foldlM_append, e,
    ok_bind, List.foldlM_cons]
  unfold setR
  rw [if_neg (by omega)]
  rfl

example : ∃ res, loadQlm 3 ([blank, List.replicate 36 ⟨1, 2⟩].flatMap (printBoo id)) [] = .ok res ∧
    res.length = 3 :=
  let ⟨r, h1, h2, _⟩ := C58_qlm_partial id 3 [blank, List.replicate 36 ⟨1, 2⟩] [] (by simp [blank])
    (by decide)
  ⟨r, h1, h2⟩
example : ∃ file, exportQ6m id [blank, blank] = .ok file ∧ loadQ6m 2 file [] = .error .ub :=
  C58_q6m_counterexample id [blank, blank] [] (by simp [blank]) (by simp)

end Boo
end Colloids
