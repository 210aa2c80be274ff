import Mathlib.Tactic.Linarith
import Mathlib.Tactic.Ring
import Mathlib.Tactic.FieldSimp
import Mathlib.Tactic.IntervalCases
import Verif.CommonLemmas
import Verif.Py.BarModel

/-! # Proofs about the progress bar: C243 -/

namespace Colloids
namespace Py
namespace Bar

theorem pyRound_near (q : ℚ) : |(pyRound q : ℚ) - q| ≤ 1 / 2 := by
  have h1 := Int.floor_le q
  have h2 := Int.lt_floor_add_one q
  rw [abs_le]
  unfold pyRound
  split
  · constructor <;> linarith
  · split
    · push_cast
      constructor <;> linarith
    · split
      · constructor <;> linarith
      · push_cast
        constructor <;> linarith

theorem pyRound_le {q : ℚ} {k : ℤ} (h : q ≤ k) : pyRound q ≤ k := by
  have h1 := (abs_le.1 (pyRound_near q)).2
  have h2 : (pyRound q : ℚ) < k + 1 := by linarith
  have h3 : pyRound q < k + 1 := by exact_mod_cast h2
  omega

theorem le_pyRound {q : ℚ} {k : ℤ} (h : (k : ℚ) ≤ q) : k ≤ pyRound q := by
  have h1 := (abs_le.1 (pyRound_near q)).1
  have h2 : (k : ℚ) < pyRound q + 1 := by linarith
  have h3 : k < pyRound q + 1 := by exact_mod_cast h2
  omega

theorem percent_eq (n e : Nat) : percent n e = pyRound (100 * e / n) := by
  unfold percent
  congr 1
  ring

theorem percent_range {n e : Nat} (hn : 0 < n) (h : e ≤ n) : 0 ≤ percent n e ∧ percent n e ≤ 100 := by
  rw [percent_eq]
  have hn' : (0 : ℚ) < n := by exact_mod_cast hn
  have h' : (e : ℚ) ≤ n := by exact_mod_cast h
  constructor
  · exact le_pyRound (by push_cast; positivity)
  · refine pyRound_le ?_
    rw [div_le_iff₀ hn']
    push_cast
    linarith

theorem hashes_range {p : ℤ} (h0 : 0 ≤ p) (h : p ≤ 100) : 0 ≤ hashes p ∧ hashes p ≤ 38 := by
  have h0' : (0 : ℚ) ≤ p := by exact_mod_cast h0
  have h' : (p : ℚ) ≤ 100 := by exact_mod_cast h
  unfold hashes
  constructor
  · exact le_pyRound (by push_cast; linarith)
  · exact pyRound_le (by push_cast; linarith)

theorem stars_length (p : ℤ) : (stars p).length = 2 + (hashes p).toNat + (38 - hashes p).toNat := by
  simp only [stars, List.length_append, List.length_replicate, List.length_cons, List.length_nil]
  have : (40 - 2 - hashes p : ℤ) = 38 - hashes p := by ring
  rw [this]
  omega

theorem digits_short : ∀ k, k ≤ 100 → (Nat.toDigits 10 k).length ≤ 3 ∧ 1 ≤ (Nat.toDigits 10 k).length := by
  intro k hk
  interval_cases k <;> decide

theorem digits_length {p : ℤ} (h : p ≤ 100) : (digits p).length ≤ 3 ∧ 1 ≤ (digits p).length := digits_short _ (by omega)

/-- C243. While the number of iterations done is not more than the total, the bar is between brackets and 40 wide; the percentage, within half a percent of
the truth, is written in its middle; in the parts that are not covered by the percentage, as many places as the rounded percentage of 38 have a star. -/
theorem C243_bar_partial (b : Bar) (hn : 0 < b.iterations) (e : Nat) (he : e ≤ b.iterations) :
    ∃ (p s : Nat) (left right : List Char), p ≤ 100 ∧ |(p : ℚ) - 100 * e / b.iterations| ≤ 1 / 2 ∧ s ≤ 38 ∧ |(s : ℚ) - 38 * p / 100| ≤ 1 / 2 ∧
      (update b e).map Bar.text = .ok (left ++ Nat.toDigits 10 p ++ ['%'] ++ right ++ s!"  {e} of {b.iterations} complete".toList) ∧
      left.length + (Nat.toDigits 10 p).length = 20 ∧ (left ++ Nat.toDigits 10 p ++ ['%'] ++ right).length = 40 ∧
      (∀ i, i < left.length → left[i]? = some (if i = 0 then '[' else if i ≤ s then '*' else ' ')) ∧
      ∀ i, i < right.length → right[i]? = some (if i = 18 then ']' else if i + 21 ≤ s then '*' else ' ') := by
  obtain ⟨h0, h1⟩ := percent_range hn he
  obtain ⟨h2, h3⟩ := hashes_range h0 h1
  obtain ⟨h4, h5⟩ := digits_length h1
  generalize hp : percent b.iterations e = p at *
  obtain ⟨k, rfl⟩ : ∃ k : Nat, p = k := ⟨p.toNat, by omega⟩
  obtain ⟨s, hs⟩ : ∃ s : Nat, hashes k = s := ⟨(hashes k).toNat, by omega⟩
  have hlen : (stars k).length = 40 := by rw [stars_length]; omega
  have hd : digits k = Nat.toDigits 10 k := by rw [digits, Int.toNat_natCast]
  rw [hd] at h4 h5
  have hplace : place k = 20 - (Nat.toDigits 10 k).length := by rw [place, hlen, hd]
  have hget : ∀ i, i < 40 → (stars k)[i]? = some (if i = 0 then '[' else if i ≤ s then '*' else if i = 39 then ']' else ' ') := by
    intro i hi
    have hst : stars k = ['['] ++ (List.replicate s '*' ++ (List.replicate (38 - s) ' ' ++ [']'])) := by
      rw [stars, hs]
      have : ((40 - 2 : ℤ) - (s : ℤ)).toNat = 38 - s := by omega
      rw [this, Int.toNat_natCast]
      simp only [List.append_assoc]
    rw [hst]
    rcases i with _ | i
    · rfl
    · rw [List.singleton_append, List.getElem?_cons_succ, if_neg (Nat.succ_ne_zero i)]
      by_cases h6 : i < s
      · rw [List.getElem?_append_left (by rw [List.length_replicate]; exact h6), List.getElem?_replicate_of_lt h6, if_pos (by omega)]
      · rw [List.getElem?_append_right (by rw [List.length_replicate]; omega), List.length_replicate, if_neg (by omega)]
        by_cases h7 : i - s < 38 - s
        · rw [List.getElem?_append_left (by rw [List.length_replicate]; exact h7), List.getElem?_replicate_of_lt h7, if_neg (by omega)]
        · have h8 : i = 38 := by omega
          subst h8
          rw [List.getElem?_append_right (by rw [List.length_replicate]), List.length_replicate, if_pos rfl, Nat.sub_self]
          rfl
  refine ⟨k, s, (stars k).take (20 - (Nat.toDigits 10 k).length), (stars k).drop 21, by omega, ?_, by omega, ?_, ?_, ?_, ?_, ?_, ?_⟩
  · have := pyRound_near (100 * e / b.iterations)
    rw [← percent_eq, hp] at this
    exact_mod_cast this
  · have := pyRound_near (((k : ℤ) : ℚ) / 100 * (40 - 2))
    have h6 : pyRound (((k : ℤ) : ℚ) / 100 * (40 - 2)) = s := hs
    rw [h6] at this
    have h7 : (((k : ℤ) : ℚ) / 100 * (40 - 2)) = 38 * k / 100 := by push_cast; ring
    rw [h7] at this
    exact_mod_cast this
  · rw [update, if_neg (by omega)]
    simp only [Except.map, hp, barOf, hplace, hd]
    have h6 : 20 - (Nat.toDigits 10 k).length + (Nat.toDigits 10 k ++ ['%']).length = 21 := by
      rw [List.length_append, List.length_singleton]
      omega
    rw [h6]
    simp only [List.append_assoc]
  · rw [List.length_take, hlen]
    omega
  · simp only [List.length_append, List.length_take, List.length_drop, hlen, List.length_singleton]
    omega
  · intro i hi
    rw [List.length_take, hlen] at hi
    rw [List.getElem?_take_of_lt (by omega), hget i (by omega)]
    have : i ≠ 39 := by omega
    rw [if_neg this]
  · intro i hi
    rw [List.length_drop, hlen] at hi
    rw [List.getElem?_drop, hget _ (by omega), if_neg (by omega)]
    congr 1
    by_cases h6 : i = 18
    · subst h6
      rw [if_neg (by omega), if_pos rfl, if_pos rfl]
    · rw [if_neg h6]
      have h7 : ¬ 21 + i = 39 := by omega
      rw [if_neg h7]
      have h8 : (21 + i ≤ s) = (i + 21 ≤ s) := by rw [Nat.add_comm]
      simp only [h8]

theorem loop_get (b : Bar) (hn : 0 < b.iterations) (m start : Nat) :
    ∃ l, loop b ((List.range m).map (start + ·)) = .ok l ∧ l.length = m ∧ (0 < m → l[0]? = some b.text) ∧
      ∀ i, 0 < i → i < m → ∃ t, l[i]? = some t ∧ (update b (start + i)).map Bar.text = .ok t := by
  induction m generalizing b start with
  | zero => exact ⟨[], rfl, rfl, fun h => absurd h (Nat.lt_irrefl _), fun i _ h => absurd h (Nat.not_lt_zero _)⟩
  | succ m ih =>
    obtain ⟨b', hb⟩ : ∃ b', update b (start + 1) = .ok b' := by rw [update, if_neg (by omega)]; exact ⟨_, rfl⟩
    have hi : b'.iterations = b.iterations := by
      rw [update, if_neg (by omega), Except.ok.injEq] at hb
      rw [← hb]
    obtain ⟨l, h1, h2, h3, h4⟩ := ih b' (by omega) (start + 1)
    have hr : (List.range (m + 1)).map (start + ·) = start :: (List.range m).map (start + 1 + ·) := by
      rw [List.range_succ_eq_map, List.map_cons, List.map_map]
      congr 1
      refine List.map_congr_left fun x _ => ?_
      simp only [Function.comp_apply]
      omega
    refine ⟨b.text :: l, ?_, by rw [List.length_cons, h2], fun _ => rfl, ?_⟩
    · rw [hr, loop, animate, hb, ok_bind]
      simp only [pure_eq_ok, ok_bind, h1]
    · intro i h0 him
      obtain ⟨j, rfl⟩ : ∃ j, i = j + 1 := ⟨i - 1, by omega⟩
      rw [List.getElem?_cons_succ]
      rcases Nat.eq_zero_or_pos j with rfl | hj
      · exact ⟨b'.text, h3 (by omega), by rw [hb]; rfl⟩
      · obtain ⟨t, ht, hu⟩ := h4 j hj (by omega)
        refine ⟨t, ht, ?_⟩
        rw [← hu, update, update, hi, if_neg (by omega), if_neg (by omega)]
        simp only [Except.map]
        rw [show start + 1 + j = start + (j + 1) by omega]

/-- C243, the part that is false. In a loop of n iterations the bar is printed before it is updated: the one printed at the end of the iteration i, when i + 1 of
them are done, is the one that says that i of n are complete; the last one says that n - 1 of n are complete. -/
theorem C243_late_counterexample (n : Nat) (hn : 0 < n) :
    ∃ b l, create true n = .ok b ∧ loop b (List.range n) = .ok l ∧ l.length = n ∧ l[0]? = some (barOf 0) ∧
      ∀ i, 0 < i → i < n → ∃ t, l[i]? = some t ∧ (update b i).map Bar.text = .ok t := by
  obtain ⟨l, h1, h2, h3, h4⟩ := loop_get ⟨n, barOf 0⟩ hn n 0
  refine ⟨⟨n, barOf 0⟩, l, rfl, ?_, h2, h3 hn, ?_⟩
  · rw [← h1]
    congr 1
    simp
  · intro i h0 hi
    have := h4 i h0 hi
    rwa [Nat.zero_add] at this

/-- C243, the part that is false. From 102 percent on the bar is not 40 wide: it goes on growing. -/
theorem C243_wide_counterexample (p : ℤ) (h : 102 ≤ p) : 40 < (barOf p).length := by
  have h' : (102 : ℚ) ≤ p := by exact_mod_cast h
  have h1 : 39 ≤ hashes p := by
    have h2 := (abs_le.1 (pyRound_near ((p : ℚ) / 100 * (40 - 2)))).1
    have h3 : ((38 : ℤ) : ℚ) < pyRound ((p : ℚ) / 100 * (40 - 2)) := by push_cast; linarith
    have h4 : (38 : ℤ) < hashes p := Int.cast_lt.1 h3
    omega
  have hl : 40 < (stars p).length := by rw [stars_length]; omega
  have hp : place p ≤ (stars p).length := by
    unfold place
    omega
  unfold barOf
  simp only [List.length_append, List.length_take, List.length_drop]
  omega

/-- C243, the part that is false. There is no progress bar without IPython, and none can be updated when there is nothing to do. -/
theorem C243_fails_counterexample (n e : Nat) (b : Bar) (hb : b.iterations = 0) : create false n = .error .logicError ∧ update b e = .error .logicError :=
  ⟨rfl, by rw [update, if_pos hb]⟩

example : (barOf 50).length = 40 ∧ percent 200 199 = 100 ∧ percent 8 1 = 12 := by decide +kernel

end Bar
end Py
end Colloids
