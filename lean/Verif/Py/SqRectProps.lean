import Verif.Py.SqProps

/-! # C222: wave vectors and structure factor in a rectangular box, python/colloids/periodic.py:552-627 -/

namespace Colloids
namespace Py
namespace Sq

open Periodic (isqrt)

/-- Order of the three loops. -/
def Lex (x y : Nat × Nat × Nat) : Prop := x.1 < y.1 ∨ x.1 = y.1 ∧ (x.2.1 < y.2.1 ∨ x.2.1 = y.2.1 ∧ x.2.2 < y.2.2)

/-- The test of line 563. -/
def Longer (Lsq : Fin 3 → ℝ) (nk : Nat) (x : Nat × Nat × Nat) : Prop :=
  (((nk - 1 : Nat) : ℝ) * ((nk - 1 : Nat) : ℝ) - (x.1 : ℝ) * x.1) / Lsq 0 < (x.2.1 : ℝ) * x.2.1 / Lsq 1 + (x.2.2 : ℝ) * x.2.2 / Lsq 2

open Classical in
/-- All the vectors that pass the tests. -/
noncomputable def rectAll (Lsq : Fin 3 → ℝ) (nk : Nat) : List (Nat × Nat × Nat) := (rectTried Lsq nk).filter fun x => Longer Lsq nk x

theorem generate_take (nk : Nat) (Lsq : Fin 3 → ℝ) (maxNvec : Nat) : generateKvecRect nk Lsq maxNvec = (rectAll Lsq nk).take maxNvec := by
  classical
  have : ∀ (L v : List (Nat × Nat × Nat)), v.length ≤ maxNvec →
      L.foldl (rectStep Lsq nk maxNvec) v = v ++ (L.filter fun x => Longer Lsq nk x).take (maxNvec - v.length) := by
    intro L
    induction L with
    | nil => intro v _; simp
    | cons x L ih =>
      intro v hv
      rw [List.foldl_cons]
      by_cases hx : Longer Lsq nk x
      · rw [List.filter_cons_of_pos (by simpa using hx)]
        by_cases hl : v.length < maxNvec
        · have e : rectStep Lsq nk maxNvec v x = v ++ [x] := if_pos ⟨hl, hx⟩
          obtain ⟨r, hr⟩ : ∃ r, maxNvec - v.length = r + 1 := ⟨maxNvec - v.length - 1, by omega⟩
          rw [e, ih _ (by simp; omega), hr, List.take_succ_cons, List.append_assoc, List.singleton_append]
          simp only [List.length_append, List.length_singleton]
          rw [show maxNvec - (v.length + 1) = r by omega]
        · have e : rectStep Lsq nk maxNvec v x = v := if_neg fun h => hl h.1
          rw [e, ih v hv, show maxNvec - v.length = 0 by omega]
          simp
      · have e : rectStep Lsq nk maxNvec v x = v := if_neg fun h => hx h.2
        rw [List.filter_cons_of_neg (by simpa using hx), e, ih v hv]
  rw [generateKvecRect, this _ [] (by simp), rectAll]
  simp

theorem tried_sorted (Lsq : Fin 3 → ℝ) (nk : Nat) : (rectTried Lsq nk).Pairwise Lex := by
  unfold rectTried
  rw [List.pairwise_flatMap]
  constructor
  · intro i _
    rw [List.pairwise_flatMap]
    constructor
    · intro j _
      rw [List.pairwise_map]
      have : (kRange Lsq nk i j).Pairwise (· < ·) := by
        unfold kRange
        split_ifs
        · exact List.Pairwise.nil
        · exact List.pairwise_lt_range.filter _
      exact this.imp fun {a b} h => Or.inr ⟨rfl, Or.inr ⟨rfl, h⟩⟩
    · refine (List.pairwise_lt_range.filter _).imp ?_
      intro j j' h x hx y hy
      obtain ⟨_, _, rfl⟩ := List.mem_map.1 hx
      obtain ⟨_, _, rfl⟩ := List.mem_map.1 hy
      exact Or.inr ⟨rfl, Or.inl h⟩
  · refine List.pairwise_lt_range.imp ?_
    intro i i' h x hx y hy
    obtain ⟨_, _, hx⟩ := List.mem_flatMap.1 hx
    obtain ⟨_, _, rfl⟩ := List.mem_map.1 hx
    obtain ⟨_, _, hy⟩ := List.mem_flatMap.1 hy
    obtain ⟨_, _, rfl⟩ := List.mem_map.1 hy
    exact Or.inl h

/-- The bounds of the loops and the test, for the vector of components `i`, `j`, `k`. -/
theorem mem_tried {Lsq : Fin 3 → ℝ} (hL : ∀ a, 0 < Lsq a) (nk i j k : Nat) : (i, j, k) ∈ rectTried Lsq nk ↔
    i ≤ nk ∧ Lsq 0 * j * j < Lsq 1 * ((nk : ℝ) * nk - (i : ℝ) * i) + 1 ∧ ((k * k : Nat) : Int) ≤ ksq Lsq nk i j ∧
      isqrt (max 0 (ksq Lsq (nk - 1) i j)).toNat ≤ k := by
  have hk : k ∈ kRange Lsq nk i j ↔ ((k * k : Nat) : Int) ≤ ksq Lsq nk i j ∧ isqrt (max 0 (ksq Lsq (nk - 1) i j)).toNat ≤ k := by
    unfold kRange
    split_ifs with h
    · constructor
      · intro h'; simp at h'
      · rintro ⟨h1, -⟩
        have : (0 : Int) ≤ ((k * k : Nat) : Int) := Int.natCast_nonneg _
        omega
    · rw [List.mem_filter, List.mem_range, Nat.lt_succ_iff, decide_eq_true_iff]
      refine and_congr_left fun _ => ?_
      unfold isqrt
      rw [Nat.le_sqrt]
      omega
  have hj : j ∈ jRange Lsq nk i ↔ Lsq 0 * j * j < Lsq 1 * ((nk : ℝ) * nk - (i : ℝ) * i) + 1 := by
    unfold jRange
    rw [List.mem_filter, decide_eq_true_iff, and_iff_right_iff_imp]
    intro h
    rw [List.mem_range, Nat.lt_succ_iff]
    have h1 : (j : ℝ) * j < (Lsq 1 * ((nk : ℝ) * nk) + 1) / Lsq 0 := by
      rw [lt_div_iff₀ (hL 0)]
      have : 0 ≤ Lsq 1 * ((i : ℝ) * i) := by have := hL 1; positivity
      nlinarith
    have h2 : (j : ℝ) ≤ (j : ℝ) * j := by exact_mod_cast Nat.le_mul_self j
    have h3 := Nat.le_ceil ((Lsq 1 * ((nk : ℝ) * nk) + 1) / Lsq 0)
    have h4 : (j : ℝ) ≤ (⌈(Lsq 1 * ((nk : ℝ) * nk) + 1) / Lsq 0⌉₊ : ℝ) := by linarith
    exact_mod_cast h4
  unfold rectTried
  rw [List.mem_flatMap]
  constructor
  · rintro ⟨i', hi, h⟩
    obtain ⟨j', hj', h⟩ := List.mem_flatMap.1 h
    obtain ⟨k', hk', h⟩ := List.mem_map.1 h
    cases h
    exact ⟨by simpa [Nat.lt_succ_iff] using hi, hj.1 hj', hk.1 hk'⟩
  · rintro ⟨h1, h2, h3⟩
    exact ⟨i, by simpa [Nat.lt_succ_iff] using h1, List.mem_flatMap.2 ⟨j, hj.2 h2, List.mem_map.2 ⟨k, hk.2 h3, rfl⟩⟩⟩

theorem truncZ_le {x : ℝ} {n : Nat} (h : (n : Int) ≤ truncZ x) : n = 0 ∨ (n : ℝ) ≤ x := by
  unfold truncZ at h
  split_ifs at h with hx
  · right
    have := Int.le_floor.1 h
    exact_mod_cast this
  · left
    have : ⌈x⌉ ≤ 0 := Int.ceil_le.2 (by simpa using (not_le.1 hx).le)
    omega

theorem le_truncZ {x : ℝ} {n : Nat} (h : (n : ℝ) ≤ x) : (n : Int) ≤ truncZ x := by
  unfold truncZ
  have h0 : 0 ≤ x := le_trans (by positivity) h
  rw [if_pos h0]
  exact Int.le_floor.2 (by exact_mod_cast h)

/-- C222: the wave vectors of a bin are the first `maxNvec`, in the order of the loops, of a list without repetitions that has all the vectors
with components of no sign in the shell of the bin; those of that list are longer than the inner radius, and not longer than the outer one except for
`1 / (L0² L1²)` on their square; for `maxNvec` positive there is at least one. -/
theorem C222_vectors_partial {Lsq : Fin 3 → ℝ} (h10 : Lsq 1 ≤ Lsq 0) (h21 : Lsq 2 ≤ Lsq 1) (h2 : 0 < Lsq 2) (h0 : 1 ≤ Lsq 0) (nk maxNvec : Nat)
    (hnk : 0 < nk) :
    ∃ all : List (Nat × Nat × Nat), generateKvecRect nk Lsq maxNvec = all.take maxNvec ∧ all.Pairwise Lex ∧ (nk, 0, 0) ∈ all ∧
      (∀ i j k : Nat, (i, j, k) ∈ all → i ≤ nk ∧ j ≤ nk ∧ k ≤ nk ∧
        ((nk : ℝ) - 1) ^ 2 / Lsq 0 < (i : ℝ) ^ 2 / Lsq 0 + (j : ℝ) ^ 2 / Lsq 1 + (k : ℝ) ^ 2 / Lsq 2 ∧
        (i : ℝ) ^ 2 / Lsq 0 + (j : ℝ) ^ 2 / Lsq 1 + (k : ℝ) ^ 2 / Lsq 2 < (nk : ℝ) ^ 2 / Lsq 0 + 1 / (Lsq 0 * Lsq 1)) ∧
      ∀ i j k : Nat, ((nk : ℝ) - 1) ^ 2 / Lsq 0 < (i : ℝ) ^ 2 / Lsq 0 + (j : ℝ) ^ 2 / Lsq 1 + (k : ℝ) ^ 2 / Lsq 2 →
        (i : ℝ) ^ 2 / Lsq 0 + (j : ℝ) ^ 2 / Lsq 1 + (k : ℝ) ^ 2 / Lsq 2 ≤ (nk : ℝ) ^ 2 / Lsq 0 → (i, j, k) ∈ all := by
  classical
  have p1 : 0 < Lsq 1 := by linarith
  have p0 : 0 < Lsq 0 := by linarith
  have hL : ∀ a, 0 < Lsq a := by intro a; fin_cases a <;> assumption
  have hc : (((nk - 1 : Nat) : ℝ)) = (nk : ℝ) - 1 := by rw [Nat.cast_sub hnk]; simp
  have hlong : ∀ i j k : Nat, Longer Lsq nk (i, j, k) ↔
      ((nk : ℝ) - 1) ^ 2 / Lsq 0 < (i : ℝ) ^ 2 / Lsq 0 + (j : ℝ) ^ 2 / Lsq 1 + (k : ℝ) ^ 2 / Lsq 2 := by
    intro i j k
    unfold Longer
    simp only [hc]
    rw [sub_div]
    constructor <;> intro h <;> simp only [sq] at * <;> linarith
  have hcomplete : ∀ i j k : Nat, ((nk : ℝ) - 1) ^ 2 / Lsq 0 < (i : ℝ) ^ 2 / Lsq 0 + (j : ℝ) ^ 2 / Lsq 1 + (k : ℝ) ^ 2 / Lsq 2 →
        (i : ℝ) ^ 2 / Lsq 0 + (j : ℝ) ^ 2 / Lsq 1 + (k : ℝ) ^ 2 / Lsq 2 ≤ (nk : ℝ) ^ 2 / Lsq 0 → (i, j, k) ∈ rectAll Lsq nk := by
    intro i j k hlo hhi
    unfold rectAll
    rw [List.mem_filter, decide_eq_true_iff]
    refine ⟨(mem_tried hL nk i j k).2 ⟨?_, ?_, ?_, ?_⟩, (hlong i j k).2 hlo⟩
    · have a1 : 0 ≤ (j : ℝ) ^ 2 / Lsq 1 := by positivity
      have a2 : 0 ≤ (k : ℝ) ^ 2 / Lsq 2 := by positivity
      have a3 : (i : ℝ) ^ 2 / Lsq 0 ≤ (nk : ℝ) ^ 2 / Lsq 0 := by linarith
      rw [div_le_div_iff_of_pos_right p0] at a3
      have a4 : i ^ 2 ≤ nk ^ 2 := by exact_mod_cast a3
      exact (Nat.pow_le_pow_iff_left two_ne_zero).1 a4
    · have a2 : 0 ≤ (k : ℝ) ^ 2 / Lsq 2 := by positivity
      have a3 : (j : ℝ) ^ 2 / Lsq 1 ≤ ((nk : ℝ) ^ 2 - (i : ℝ) ^ 2) / Lsq 0 := by rw [sub_div]; linarith
      rw [div_le_div_iff₀ p1 p0] at a3
      nlinarith
    · unfold ksq
      refine le_truncZ ?_
      push_cast
      rw [mul_comm (Lsq 2), ← div_le_iff₀ h2, sub_div]
      simp only [sq] at hhi
      linarith
    · unfold isqrt
      rw [← Nat.lt_succ_iff, Nat.sqrt_lt]
      by_contra hcon
      push Not at hcon
      have hk1 : (((k + 1) * (k + 1) : Nat) : Int) ≤ ksq Lsq (nk - 1) i j := by
        have : 0 < (k + 1) * (k + 1) := by positivity
        have hcon' : (k + 1) * (k + 1) ≤ (max 0 (ksq Lsq (nk - 1) i j)).toNat := hcon
        omega
      rcases truncZ_le hk1 with hz | hle
      · have : 0 < (k + 1) * (k + 1) := by positivity
        omega
      · rw [hc] at hle
        push_cast at hle
        rw [mul_comm (Lsq 2), ← div_le_iff₀ h2, sub_div] at hle
        have a1 : (k : ℝ) ^ 2 / Lsq 2 ≤ ((k : ℝ) + 1) * ((k : ℝ) + 1) / Lsq 2 := by
          rw [div_le_div_iff_of_pos_right h2]; nlinarith [show (0 : ℝ) ≤ k by positivity]
        simp only [sq] at hlo a1
        linarith
  refine ⟨rectAll Lsq nk, generate_take nk Lsq maxNvec, (tried_sorted Lsq nk).filter _, ?_, ?_, hcomplete⟩
  · refine hcomplete nk 0 0 ?_ (by simp)
    have a1 : (1 : ℝ) ≤ nk := by exact_mod_cast hnk
    simp only [Nat.cast_zero, ne_eq, OfNat.ofNat_ne_zero, not_false_eq_true, zero_pow, zero_div, add_zero]
    rw [div_lt_div_iff_of_pos_right p0]
    nlinarith
  · intro i j k h
    unfold rectAll at h
    rw [List.mem_filter, decide_eq_true_iff, mem_tried hL, hlong] at h
    obtain ⟨⟨hi, hj, hk, -⟩, hlo⟩ := h
    have hi' : (i : ℝ) ≤ nk := by exact_mod_cast hi
    have hi2 : (i : ℝ) * i ≤ (nk : ℝ) * nk := by nlinarith [show (0 : ℝ) ≤ i by positivity]
    have hj1 : (j : ℝ) ^ 2 / Lsq 1 < ((nk : ℝ) ^ 2 - (i : ℝ) ^ 2) / Lsq 0 + 1 / (Lsq 0 * Lsq 1) := by
      have : ((nk : ℝ) ^ 2 - (i : ℝ) ^ 2) / Lsq 0 + 1 / (Lsq 0 * Lsq 1) = (Lsq 1 * ((nk : ℝ) * nk - (i : ℝ) * i) + 1) / (Lsq 0 * Lsq 1) := by
        field_simp
      rw [this, div_lt_div_iff₀ p1 (by positivity)]
      nlinarith
    have hkk : (k : ℝ) ^ 2 / Lsq 2 = 0 ∨ (k : ℝ) ^ 2 / Lsq 2 ≤ ((nk : ℝ) ^ 2 - (i : ℝ) ^ 2) / Lsq 0 - (j : ℝ) ^ 2 / Lsq 1 := by
      rcases truncZ_le hk with hz | hle
      · left
        have : k = 0 := by simpa using hz
        simp [this]
      · right
        push_cast at hle
        rw [mul_comm (Lsq 2), ← div_le_iff₀ h2] at hle
        simp only [sq]
        linarith
    refine ⟨hi, ?_, ?_, hlo, ?_⟩
    · by_contra hcon
      push Not at hcon
      have b1 : (nk : ℝ) + 1 ≤ j := by exact_mod_cast hcon
      have b2 : Lsq 1 * ((nk : ℝ) * nk - (i : ℝ) * i) ≤ Lsq 0 * ((nk : ℝ) * nk) := by
        have : 0 ≤ Lsq 1 * ((i : ℝ) * i) := by positivity
        nlinarith [show (0 : ℝ) ≤ (nk : ℝ) * nk by positivity]
      have b3 : ((nk : ℝ) + 1) * ((nk : ℝ) + 1) ≤ (j : ℝ) * j := by nlinarith [show (0 : ℝ) ≤ nk by positivity]
      have b4 : Lsq 0 * (((nk : ℝ) + 1) * ((nk : ℝ) + 1)) ≤ Lsq 0 * j * j := by rw [mul_assoc]; gcongr
      nlinarith [show (0 : ℝ) ≤ nk by positivity]
    · rcases hkk with hz | hle
      · have : (k : ℝ) ^ 2 = 0 := by
          rcases div_eq_zero_iff.1 hz with h | h
          · exact h
          · linarith
        have : k = 0 := by simpa using this
        omega
      · have c1 : 0 ≤ (j : ℝ) ^ 2 / Lsq 1 := by positivity
        have c2 : ((nk : ℝ) ^ 2 - (i : ℝ) ^ 2) / Lsq 0 ≤ (nk : ℝ) ^ 2 / Lsq 2 := by
          have : ((nk : ℝ) ^ 2 - (i : ℝ) ^ 2) / Lsq 0 ≤ (nk : ℝ) ^ 2 / Lsq 0 := by
            rw [div_le_div_iff_of_pos_right p0]; nlinarith [sq_nonneg (i : ℝ)]
          refine this.trans ?_
          gcongr
          linarith
        have c3 : (k : ℝ) ^ 2 / Lsq 2 ≤ (nk : ℝ) ^ 2 / Lsq 2 := by linarith
        rw [div_le_div_iff_of_pos_right h2] at c3
        have a4 : k ^ 2 ≤ nk ^ 2 := by exact_mod_cast c3
        exact (Nat.pow_le_pow_iff_left two_ne_zero).1 a4
    · have e := sub_div ((nk : ℝ) ^ 2) ((i : ℝ) ^ 2) (Lsq 0)
      rcases hkk with hz | hle
      · rw [hz, add_zero]; linarith
      · have : 0 < 1 / (Lsq 0 * Lsq 1) := by positivity
        linarith

theorem lex_irrefl {x y : Nat × Nat × Nat} (h : Lex x y) : x ≠ y := by
  rintro rfl
  unfold Lex at h
  omega

theorem rect_nodup (Lsq : Fin 3 → ℝ) (nk : Nat) : (rectAll Lsq nk).Nodup := ((tried_sorted Lsq nk).filter _).imp lex_irrefl

theorem mem_take_of_bound {Lsq : Fin 3 → ℝ} {nk maxNvec : Nat} {x : Nat × Nat × Nat} (hx : x ∈ rectAll Lsq nk) (B : List (Nat × Nat × Nat))
    (hB : ∀ y ∈ rectAll Lsq nk, y ∈ B) (hl : B.length ≤ maxNvec) : x ∈ generateKvecRect nk Lsq maxNvec := by
  rw [generate_take, List.take_of_length_le]
  · exact hx
  · exact ((rect_nodup Lsq nk).subperm hB).length_le.trans hl

/-- C222: the outer limit is exceeded: in a box of sides 10, √99.2, √99.2 the vector (0, 1, 0), of length 1/√99.2, is taken for the bin of the lengths up to
1/10. -/
theorem C222_outer_counterexample : let Lsq : Fin 3 → ℝ := fun a => if a = 0 then 100 else 99.2
    (0, 1, 0) ∈ generateKvecRect 1 Lsq 30 ∧ (1 : ℝ) / Lsq 0 < 1 / Lsq 1 := by
  intro Lsq
  have hL : ∀ a, 0 < Lsq a := by intro a; simp only [Lsq]; split_ifs <;> norm_num
  refine ⟨?_, by simp [Lsq]; norm_num⟩
  have hmem : (0, 1, 0) ∈ rectAll Lsq 1 := by
    unfold rectAll
    rw [List.mem_filter]
    simp only [decide_eq_true_eq]
    refine ⟨(mem_tried hL 1 0 1 0).2 ⟨by norm_num, by simp [Lsq]; norm_num, ?_, ?_⟩, by simp [Longer, Lsq]; norm_num⟩
    · have : ksq Lsq 1 0 1 = 0 := by
        simp [ksq, truncZ, Lsq]
        norm_num
      rw [this]; rfl
    · have : ksq Lsq (1 - 1) 0 1 ≤ 0 := by
        simp [ksq, truncZ, Lsq]
        norm_num
      rw [max_eq_left this]; simp [isqrt]
  obtain ⟨all, h1, -, -, h3, -⟩ := C222_vectors_partial (Lsq := Lsq) (by simp [Lsq]; norm_num) (by simp [Lsq]) (hL 2) (by simp [Lsq]) 1 ((rectAll Lsq 1).length + 30) one_pos
  refine mem_take_of_bound hmem [(0, 0, 0), (0, 0, 1), (0, 1, 0), (0, 1, 1), (1, 0, 0), (1, 0, 1), (1, 1, 0), (1, 1, 1)] ?_ (by norm_num)
  rintro ⟨i, j, k⟩ hy
  have hy' : (i, j, k) ∈ generateKvecRect 1 Lsq ((rectAll Lsq 1).length + 30) := by
    rw [generate_take, List.take_of_length_le (by omega)]; exact hy
  rw [h1] at hy'
  obtain ⟨a1, a2, a3, -⟩ := h3 i j k (List.mem_of_mem_take hy')
  interval_cases i <;> interval_cases j <;> interval_cases k <;> simp

theorem rect_all {Lsq : Fin 3 → ℝ} (h10 : Lsq 1 ≤ Lsq 0) (h21 : Lsq 2 ≤ Lsq 1) (h2 : 0 < Lsq 2) (h0 : 1 ≤ Lsq 0) (maxNvec : Nat) (hm : 0 < maxNvec)
    (nk : Nat) (hnk : 0 < nk) : generateKvecRect nk Lsq maxNvec ≠ [] ∧ ∀ k ∈ generateKvecRect nk Lsq maxNvec, k.1 ≤ nk ∧ k.2.1 ≤ nk ∧ k.2.2 ≤ nk := by
  obtain ⟨all, e1, -, e2, e3, -⟩ := C222_vectors_partial h10 h21 h2 h0 nk maxNvec hnk
  rw [e1]
  constructor
  · intro h
    rw [List.take_eq_nil_iff] at h
    rcases h with h | h
    · omega
    · rw [h] at e2; simp at e2
  · rintro ⟨i, j, k⟩ h
    obtain ⟨a1, a2, a3, -⟩ := e3 i j k (List.mem_of_mem_take h)
    exact ⟨a1, a2, a3⟩

/-- The sides of the box, the longest first. -/
structure Sides (Ls : Fin 3 → ℝ) (perm : Fin 3 → Fin 3) : Prop where
  h10 : Ls (perm 1) ≤ Ls (perm 0)
  h21 : Ls (perm 2) ≤ Ls (perm 1)
  h2 : 0 < Ls (perm 2)
  h0 : 1 ≤ Ls (perm 0)

theorem Sides.all {Ls : Fin 3 → ℝ} {perm : Fin 3 → Fin 3} (h : Sides Ls perm) (maxNvec : Nat) (hm : 0 < maxNvec) (nk : Nat) (hnk : 0 < nk) :
    generateKvecRect nk (fun a => (Ls ∘ perm) a ^ 2) maxNvec ≠ [] ∧
      ∀ k ∈ generateKvecRect nk (fun a => (Ls ∘ perm) a ^ 2) maxNvec, k.1 ≤ nk ∧ k.2.1 ≤ nk ∧ k.2.2 ≤ nk := by
  obtain ⟨a1, a2, a3, a4⟩ := h
  refine rect_all ?_ ?_ ?_ ?_ maxNvec hm nk hnk <;> simp only [Function.comp]
  · nlinarith
  · nlinarith
  · positivity
  · nlinarith

theorem rect_eq {Ls : Fin 3 → ℝ} {perm : Fin 3 → Fin 3} (h : Sides Ls perm) {pos : List (Fin 3 → ℝ)} {field : List ℝ} (hf : field.length = pos.length)
    (N maxNvec : Nat) (hm : maxNvec % 3 = 0) (hpos : 0 < maxNvec) : rectangularSq perm pos N Ls maxNvec field =
      .ok ((List.range N).map fun nk => if nk = 0 then 0 else meanSq (Ls ∘ perm) ((pos.map (· ∘ perm)).zip field)
        (generateKvecRect nk (fun a => (Ls ∘ perm) a ^ 2) maxNvec)) := by
  rw [rectangularSq, if_neg (by omega)]
  exact sqAll_eq (Ls ∘ perm) (by simpa using hf) _ (fun nk _ _ => rfl) fun nk h1 _ => (h.all maxNvec hpos nk h1).2

/-- C222: if the longest side of the box is at least 1, `rectangular_Sq` never reads out of its cache; the first bin is zero, each other one is the mean over
the vectors of `generate_kvec_rect` of the squared modulus of the Fourier component of the field, divided by the number of particles. -/
theorem C222_value {Ls : Fin 3 → ℝ} {perm : Fin 3 → Fin 3} (h : Sides Ls perm) {pos : List (Fin 3 → ℝ)} {field : List ℝ}
    (hf : field.length = pos.length) (N maxNvec : Nat) (hm : maxNvec % 3 = 0) (hpos : 0 < maxNvec) :
    ∃ S, rectangularSq perm pos N Ls maxNvec field = .ok S ∧ S.length = N ∧ (0 < N → S[0]? = some 0) ∧ ∀ nk, 0 < nk → nk < N →
      ∃ vs, vs = generateKvecRect nk (fun a => Ls (perm a) ^ 2) maxNvec ∧ vs ≠ [] ∧ S[nk]? = some (
        (vs.map fun k => Complex.normSq ((pos.zip field).map fun x => (x.2 : ℂ) * Complex.exp (2 * Real.pi *
          (k.1 * (x.1 (perm 0) / Ls (perm 0)) + k.2.1 * (x.1 (perm 1) / Ls (perm 1)) + k.2.2 * (x.1 (perm 2) / Ls (perm 2))) * Complex.I)).sum).sum
            / vs.length / pos.length) := by
  refine ⟨_, rect_eq h hf N maxNvec hm hpos, by simp, fun h => by simp [h], fun nk h1 h2 => ⟨_, rfl, (h.all maxNvec hpos nk h1).1, ?_⟩⟩
  rw [List.getElem?_map, List.getElem?_range h2, Option.map_some, if_neg (by omega)]
  have e : (((pos.map (· ∘ perm)).zip field).length : ℝ) = pos.length := by rw [List.length_zip, hf, List.length_map, min_self]
  unfold meanSq
  rw [e]
  have e2 : (pos.map (· ∘ perm)).zip field = (pos.zip field).map fun x => (x.1 ∘ perm, x.2) := by
    rw [List.zip_map_left]; rfl
  rw [e2]
  simp only [List.map_map, Function.comp_def]
  rfl

/-- C222: the result does not change if all the particles move together, nor if each of them is replaced by any of its periodic images; it is nowhere
negative. -/
theorem C222_periodic {Ls : Fin 3 → ℝ} {perm : Fin 3 → Fin 3} (h : Sides Ls perm) {pos pos' : List (Fin 3 → ℝ)} {field : List ℝ}
    (hf : field.length = pos.length) (N maxNvec : Nat) (hm : maxNvec % 3 = 0) (hpos : 0 < maxNvec) (t : Fin 3 → ℝ)
    (hp : List.Forall₂ (fun x y => ∃ n : Fin 3 → ℤ, ∀ a, y a = x a + t a + n a * Ls a) pos pos') :
    ∃ S, rectangularSq perm pos N Ls maxNvec field = .ok S ∧ rectangularSq perm pos' N Ls maxNvec field = .ok S ∧ ∀ s ∈ S, 0 ≤ s := by
  have hf' : field.length = pos'.length := by rw [hf, hp.length_eq]
  refine ⟨_, rect_eq h hf N maxNvec hm hpos, ?_, ?_⟩
  · rw [rect_eq h hf' N maxNvec hm hpos]
    congr 1
    refine List.map_congr_left fun nk _ => ?_
    have hd : ∀ a, (Ls ∘ perm) a ≠ 0 := by
      have b2 := h.h2
      have b1 : 0 < Ls (perm 1) := by linarith [h.h21]
      have b0 : 0 < Ls (perm 0) := by linarith [h.h0]
      intro a
      fin_cases a
      · exact b0.ne'
      · exact b1.ne'
      · exact b2.ne'
    rw [meanSq_move (Ls ∘ perm) hd (t ∘ perm) _ field (pos := pos.map (· ∘ perm)) (pos' := pos'.map (· ∘ perm))]
    rw [List.forall₂_map_left_iff, List.forall₂_map_right_iff]
    exact hp.imp fun x y ⟨n, hn⟩ => ⟨n ∘ perm, fun a => hn (perm a)⟩
  · intro s hs
    obtain ⟨nk, -, rfl⟩ := List.mem_map.1 hs
    split_ifs
    · exact le_refl _
    · exact meanSq_nonneg _ _ _

/-- All the vectors of a bin of a cubic box have no component along the first axis, if there are not more than `nk + 1` of them. -/
theorem axis_zero {L : ℝ} (hL : 1 ≤ L) (nk maxNvec : Nat) (hnk : 0 < nk) (hm : maxNvec ≤ nk + 1) :
    ∀ x ∈ generateKvecRect nk (fun _ => L ^ 2) maxNvec, x.1 = 0 := by
  have hL2 : 1 ≤ L ^ 2 := by nlinarith
  have hLp : 0 < L ^ 2 := by linarith
  obtain ⟨all, e1, e2, -, -, e5⟩ := C222_vectors_partial (Lsq := fun _ => L ^ 2) (le_refl _) (le_refl _) hLp hL2 nk maxNvec hnk
  have hv : ∀ j, j ≤ nk → (0, j, isqrt (nk * nk - j * j)) ∈ all := by
    intro j hj
    set k := isqrt (nk * nk - j * j) with hk
    have hjj : j * j ≤ nk * nk := Nat.mul_le_mul hj hj
    have k1 : k * k ≤ nk * nk - j * j := Nat.sqrt_le _
    have k2 : nk * nk - j * j < (k + 1) * (k + 1) := Nat.lt_succ_sqrt _
    have kle : k ≤ nk := by
      by_contra hc
      have := Nat.mul_self_lt_mul_self (not_le.1 hc)
      omega
    have r1 : (j : ℝ) * j + (k : ℝ) * k ≤ (nk : ℝ) * nk := by
      have : j * j + k * k ≤ nk * nk := by omega
      exact_mod_cast this
    have r2 : ((nk : ℝ) - 1) * ((nk : ℝ) - 1) < (j : ℝ) * j + (k : ℝ) * k := by
      obtain ⟨m, rfl⟩ : ∃ m, nk = m + 1 := ⟨nk - 1, by omega⟩
      have h4 : (m + 1) * (m + 1) = m * m + 2 * m + 1 := by ring
      have h5 : (k + 1) * (k + 1) = k * k + 2 * k + 1 := by ring
      have : m * m < j * j + k * k := by
        by_cases he : k = m + 1
        · rw [he]; omega
        · omega
      push_cast
      rw [add_sub_cancel_right]
      exact_mod_cast this
    refine e5 0 j k ?_ ?_
    · simp only [Nat.cast_zero, ne_eq, OfNat.ofNat_ne_zero, not_false_eq_true, zero_pow, zero_div, zero_add]
      rw [← add_div, div_lt_div_iff_of_pos_right hLp]
      nlinarith
    · simp only [Nat.cast_zero, ne_eq, OfNat.ofNat_ne_zero, not_false_eq_true, zero_pow, zero_div, zero_add]
      rw [← add_div, div_le_div_iff_of_pos_right hLp]
      nlinarith
  intro x hx
  rw [e1] at hx
  obtain ⟨m, hm1, hm2⟩ := List.mem_iff_getElem.1 hx
  rw [List.length_take] at hm1
  rw [List.getElem_take] at hm2
  by_contra hx0
  have hidx : ∀ j, ∃ p, j ≤ nk → ∃ hp : p < all.length, all[p] = (0, j, isqrt (nk * nk - j * j)) := by
    intro j
    by_cases hj : j ≤ nk
    · obtain ⟨p, hp, he⟩ := List.mem_iff_getElem.1 (hv j hj)
      exact ⟨p, fun _ => ⟨hp, he⟩⟩
    · exact ⟨0, fun h => absurd h hj⟩
  choose p hp using hidx
  have hlt : ∀ j ∈ Finset.range (nk + 1), p j ∈ Finset.range m := by
    intro j hj
    have hj' : j ≤ nk := by simpa [Nat.lt_succ_iff] using hj
    obtain ⟨hp1, hp2⟩ := hp j hj'
    rw [Finset.mem_range]
    by_contra hc
    rcases (not_lt.1 hc).eq_or_lt with h | h
    · subst h
      rw [hp2] at hm2
      rw [← hm2] at hx0
      exact hx0 rfl
    · have := (List.pairwise_iff_getElem.1 e2) m (p j) (by omega) hp1 h
      rw [hp2, hm2] at this
      unfold Lex at this
      simp only at this
      omega
  have hinj : Set.InjOn p (Finset.range (nk + 1)) := by
    intro j hj j' hj' he
    have hj : j ≤ nk := by simpa [Nat.lt_succ_iff] using hj
    have hj' : j' ≤ nk := by simpa [Nat.lt_succ_iff] using hj'
    obtain ⟨a1, a2⟩ := hp j hj
    obtain ⟨b1, b2⟩ := hp j' hj'
    simp only [he] at a2
    rw [a2] at b2
    simp only [Prod.mk.injEq] at b2
    exact b2.2.1
  have := Finset.card_le_card_of_injOn p hlt hinj
  simp at this
  omega

/-- C222: where there are more vectors than `maxNvec`, those of the first loop are taken: in a cubic box of side at least 1 (203 by default) from bin
`maxNvec - 1` on (29 by default), the structure factor does not depend on the positions along the axis
that comes first (the last one, for `np.argsort(Ls)[::-1]`). -/
theorem C222_axis_counterexample {L : ℝ} (hL : 1 ≤ L) (perm : Fin 3 → Fin 3) {pos pos' : List (Fin 3 → ℝ)} {field : List ℝ} (hf : field.length = pos.length) (N maxNvec : Nat)
    (hm : maxNvec % 3 = 0) (hpos : 0 < maxNvec) (hp : List.Forall₂ (fun x y => x (perm 1) = y (perm 1) ∧ x (perm 2) = y (perm 2)) pos pos') :
    ∃ S S', rectangularSq perm pos N (fun _ => L) maxNvec field = .ok S ∧ rectangularSq perm pos' N (fun _ => L) maxNvec field = .ok S' ∧
      ∀ nk, 0 < nk → nk < N → maxNvec ≤ nk + 1 → S[nk]? = S'[nk]? := by
  have hS : Sides (fun _ => L) perm := ⟨le_refl _, le_refl _, by show 0 < L; linarith, hL⟩
  have hf' : field.length = pos'.length := by rw [hf, hp.length_eq]
  refine ⟨_, _, rect_eq hS hf N maxNvec hm hpos, rect_eq hS hf' N maxNvec hm hpos, fun nk h1 h2 h3 => ?_⟩
  simp only [List.getElem?_map, List.getElem?_range h2, Option.map_some]
  rw [if_neg (by omega), if_neg (by omega)]
  congr 1
  have hax := axis_zero hL nk maxNvec h1 h3
  have hs : ∀ (k : Nat × Nat × Nat), k.1 = 0 → ∀ (pos pos' : List (Fin 3 → ℝ)) (field : List ℝ),
      List.Forall₂ (fun x y => x (perm 1) = y (perm 1) ∧ x (perm 2) = y (perm 2)) pos pos' →
      (((pos.map (· ∘ perm)).zip field).map fun x => (x.2 : ℂ) * wave ((fun _ => L) ∘ perm) k x.1).sum =
      (((pos'.map (· ∘ perm)).zip field).map fun x => (x.2 : ℂ) * wave ((fun _ => L) ∘ perm) k x.1).sum := by
    intro k hk pos pos' field h
    induction h generalizing field with
    | nil => rfl
    | cons hxy _ ih =>
      cases field with
      | nil => simp
      | cons f field =>
        simp only [List.map_cons, List.zip_cons_cons, List.sum_cons]
        rw [ih]
        congr 2
        simp [wave, hk, hxy.1, hxy.2]
  have hl : ((pos.map (· ∘ perm)).zip field).length = ((pos'.map (· ∘ perm)).zip field).length := by
    rw [List.length_zip, List.length_zip, List.length_map, List.length_map, hp.length_eq]
  unfold meanSq
  rw [hl]
  congr 3
  refine List.map_congr_left fun k hk => ?_
  rw [hs k (hax k hk) pos pos' field hp]

example : ∃ S S', rectangularSq id [0, 0] 50 (fun _ => 203) 30 [1, 1] = .ok S ∧
    rectangularSq id [fun a => if a = 0 then 17 else 0, 0] 50 (fun _ => 203) 30 [1, 1] = .ok S' ∧ ∀ nk, 0 < nk → nk < 50 → 30 ≤ nk + 1 → S[nk]? = S'[nk]? :=
  C222_axis_counterexample (by norm_num) id rfl 50 30 rfl (by norm_num) (.cons (by simp) (.cons (by simp) .nil))

example : ∃ S, rectangularSq id [0, fun _ => 1] 5 (fun _ => 203) 30 [1, 1] = .ok S ∧ rectangularSq id [fun _ => 203, fun _ => 1] 5 (fun _ => 203) 30 [1, 1] = .ok S ∧
    ∀ s ∈ S, 0 ≤ s :=
  C222_periodic (Ls := fun _ => 203) (perm := id) ⟨le_refl _, le_refl _, by norm_num, by norm_num⟩ rfl 5 30 rfl (by norm_num) 0
    (.cons ⟨fun _ => 1, by simp⟩ (.cons ⟨fun _ => 0, by simp⟩ .nil))

/-- A loop one of whose steps is undefined. -/
theorem fold_ub {σ α : Type} {step : σ → α → R σ} : ∀ (l : List α), (∀ s, ∀ x ∈ l, step s x = .error .ub ∨ ∃ s', step s x = .ok s') →
    (∃ x ∈ l, ∀ s, step s x = .error .ub) → ∀ s, l.foldlM step s = .error .ub := by
  intro l
  induction l with
  | nil => intro _ ⟨x, hx, _⟩; simp at hx
  | cons y l ih =>
    intro h ⟨x, hx, hxe⟩ s
    rw [List.foldlM_cons]
    rcases h s y List.mem_cons_self with he | ⟨s', he⟩
    · rw [he]; rfl
    · rw [he, ok_bind]
      rcases List.mem_cons.1 hx with rfl | hx
      · rw [hxe s] at he; cases he
      · exact ih (fun s z hz => h s z (List.mem_cons_of_mem _ hz)) ⟨x, hx, hxe⟩ s'

/-- C222: the 1 of line 558 has the unit of an area: in a flat box of sides less than 1 vectors out of the bin are taken, and the cache is read out of its
bounds. -/
theorem C222_small_counterexample : rectangularSq id [0] 2 (fun a => if a = 2 then 1 / 100 else 1 / 10) 30 [1] = .error .ub := by
  set Ls : Fin 3 → ℝ := fun a => if a = 2 then 1 / 100 else 1 / 10 with hLs
  set Lsq : Fin 3 → ℝ := fun a => (Ls ∘ id) a ^ 2 with hLsq
  have hL : ∀ a, 0 < Lsq a := by intro a; simp only [hLsq, hLs, Function.comp]; split_ifs <;> norm_num
  have l0 : Lsq 0 = 1 / 100 := by simp [hLsq, hLs]; norm_num
  have l1 : Lsq 1 = 1 / 100 := by simp [hLsq, hLs]; norm_num
  have l2 : Lsq 2 = 1 / 10000 := by simp [hLsq, hLs]; norm_num
  have hmem : (0, 2, 0) ∈ rectAll Lsq 1 := by
    unfold rectAll
    rw [List.mem_filter]
    simp only [decide_eq_true_eq]
    refine ⟨(mem_tried hL 1 0 2 0).2 ⟨by norm_num, by rw [l0, l1]; norm_num, ?_, ?_⟩, by unfold Longer; rw [l0, l1, l2]; norm_num⟩
    · have : ksq Lsq 1 0 2 = 0 := by
        unfold ksq truncZ
        rw [l0, l1, l2]
        norm_num
      rw [this]; rfl
    · have : ksq Lsq (1 - 1) 0 2 ≤ 0 := by
        unfold ksq truncZ
        rw [l0, l1, l2]
        norm_num
      rw [max_eq_left this]; simp [isqrt]
  have hv : (0, 2, 0) ∈ generateKvecRect 1 Lsq 30 := by
    refine mem_take_of_bound hmem ((List.range 2).flatMap fun i => (List.range 11).map fun j => (i, j, 0)) ?_ (by decide)
    rintro ⟨i, j, k⟩ hy
    unfold rectAll at hy
    rw [List.mem_filter, mem_tried hL, l0, l1] at hy
    obtain ⟨⟨h1, h2, h3, -⟩, -⟩ := hy
    have hk : k = 0 := by
      rcases truncZ_le h3 with hz | hle
      · simpa using hz
      · rw [l0, l1, l2] at hle
        by_contra hk0
        have : 1 ≤ k * k := Nat.mul_pos (by omega) (by omega)
        have : (1 : ℝ) ≤ ((k * k : Nat) : ℝ) := by exact_mod_cast this
        have q1 : 0 ≤ (i : ℝ) * i := by positivity
        have q2 : 0 ≤ (j : ℝ) * j := by positivity
        push_cast at hle this
        simp only [div_div_eq_mul_div, div_one] at hle
        nlinarith
    have hj : j < 11 := by
      by_contra hc
      have : (11 : ℝ) ≤ j := by exact_mod_cast not_lt.1 hc
      have q1 : 0 ≤ (i : ℝ) * i := by positivity
      norm_num at h2
      nlinarith
    subst hk
    rw [List.mem_flatMap]
    exact ⟨i, by rw [List.mem_range]; omega, List.mem_map.2 ⟨j, List.mem_range.2 hj, rfl⟩⟩
  have hcache : ∀ (dims x : Fin 3 → ℝ) (a : Fin 3) (kv : Nat), cacheAt 2 dims x a kv = .error .ub ∨ ∃ c, cacheAt 2 dims x a kv = .ok c := by
    intro dims x a kv
    unfold cacheAt getR
    cases (powers 2 (polar (2 * Real.pi / dims a * x a)))[kv]? <;> simp
  have hprod : ∀ (dims x : Fin 3 → ℝ) (k : Nat × Nat × Nat) (f : ℝ), prodOf 2 dims k x f = .error .ub ∨ ∃ c, prodOf 2 dims k x f = .ok c := by
    intro dims x k f
    unfold prodOf
    rcases hcache dims x 0 k.1 with h | ⟨c0, h⟩ <;> rw [h]
    · left; rfl
    rcases hcache dims x 1 k.2.1 with h | ⟨c1, h⟩ <;> rw [ok_bind, h]
    · left; rfl
    rcases hcache dims x 2 k.2.2 with h | ⟨c2, h⟩ <;> rw [ok_bind, h]
    · left; rfl
    · right; exact ⟨_, rfl⟩
  have hsum : ∀ (dims x : Fin 3 → ℝ) (k : Nat × Nat × Nat) (f : ℝ), sumRho 2 dims [(x, f)] k = .error .ub ∨ ∃ c, sumRho 2 dims [(x, f)] k = .ok c := by
    intro dims x k f
    unfold sumRho
    rw [List.foldlM_cons]
    rcases hprod dims x k f with h | ⟨c, h⟩
    · left; rw [h]; rfl
    · right; rw [h]; exact ⟨_, rfl⟩
  have hbin : sqAt 2 (Ls ∘ id) [(((0 : Fin 3 → ℝ) ∘ id), (1 : ℝ))] (fun nk => .ok (generateKvecRect nk Lsq 30)) 1 = .error .ub := by
    rw [sqAt, if_neg one_ne_zero, ok_bind, sqBin]
    rw [fold_ub (generateKvecRect 1 Lsq 30)]
    · rfl
    · intro s k _
      rcases hsum (Ls ∘ id) ((0 : Fin 3 → ℝ) ∘ id) k 1 with h | ⟨c, h⟩ <;> rw [h]
      · left; rfl
      · right; exact ⟨_, rfl⟩
    · refine ⟨_, hv, fun s => ?_⟩
      have hc : cacheAt 2 (Ls ∘ id) ((0 : Fin 3 → ℝ) ∘ id) 1 2 = .error .ub := by
        unfold cacheAt
        refine getR_eq_ub ?_
        simp [powers]
      have : sumRho 2 (Ls ∘ id) [((0 : Fin 3 → ℝ) ∘ id, (1 : ℝ))] (0, 2, 0) = .error .ub := by
        unfold sumRho
        rw [List.foldlM_cons]
        unfold prodOf
        have h0 : cacheAt 2 (Ls ∘ id) ((0 : Fin 3 → ℝ) ∘ id) 0 0 = .ok (polar (2 * Real.pi / (Ls ∘ id) 0 * ((0 : Fin 3 → ℝ) ∘ id) 0) ^ 0) := by
          unfold cacheAt
          exact powers_get _ (by norm_num)
        simp only
        rw [h0, ok_bind, hc]
        rfl
      rw [this]; rfl
  rw [rectangularSq, if_neg (by norm_num), sqAll, if_neg (by simp)]
  simp only [List.map_cons, List.map_nil, List.zip_cons_cons, List.zip_nil_right]
  rw [show List.range 2 = [0, 1] from rfl, List.mapM_cons, List.mapM_cons, hbin]
  rw [sqAt, if_pos rfl]
  rfl

end Sq
end Py
end Colloids
