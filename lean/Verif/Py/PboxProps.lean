import Mathlib.Tactic.Linarith
import Mathlib.Tactic.Ring
import Mathlib.Tactic.Positivity
import Mathlib.Data.Finset.Card
import Mathlib.Algebra.BigOperators.Fin
import Verif.Py.PboxModel
import Verif.Py.PeriodicProps
import Verif.Py.PairRdfProps

/-! # Correlations in a periodic box in python: C224, C225 -/

namespace Colloids
namespace Py
namespace Pbox

open Periodic

/-- The distance between `a` and the nearest image of `b` in a cubic periodic box (see C149 for `periodify`). -/
noncomputable def imgDist (L : ℝ) (a b : Fin 3 → ℝ) : ℝ := Real.sqrt (∑ k, periodify (b k) (a k) L ^ 2)

/-- No coordinate of `a` is below the one of `b` by more than half the box. -/
def Reach (L : ℝ) (a b : Fin 3 → ℝ) : Prop := ∀ k, -(L / 2) ≤ a k - b k

/-- All the positions are in a box of side `L`. -/
def InBox (L : ℝ) (pos : List (Fin 3 → ℝ)) : Prop := ∀ a ∈ pos, ∀ b ∈ pos, ∀ k, |a k - b k| < L

/-- `b` is at a distance of `a` that is in the bin `r`, of width `m / n`. -/
def Shell (L m : ℝ) (n : Nat) (a b : Fin 3 → ℝ) (r : Nat) : Prop :=
  (r : ℝ) * (m / n) ≤ imgDist L a b ∧ imgDist L a b < ((r : ℝ) + 1) * (m / n)

theorem dist_seen {L x y : ℝ} (hL : 0 < L) (hb : |x - y| < L) (hr : -(L / 2) ≤ x - y) (fuel : Nat) :
    ∃ d, periodicDist (fuel + 1) x y L = .ok d ∧ d ^ 2 = periodify y x L ^ 2 := by
  have hb' := abs_lt.1 hb
  have hp : ¬ L ≤ 0 := not_le.2 hL
  by_cases h1 : L * (1 / 2) < x - y
  · refine ⟨x - y - L, ?_, ?_⟩
    · have h2 : ¬ L * (1 / 2) < x - y - L := by linarith
      have h3 : ¬ x - y - L < -(L * (1 / 2)) := by linarith
      simp only [periodicDist, downLoop, if_pos h1]
      cases fuel <;> simp only [downLoop, if_neg h2, ok_bind, upLoop, if_neg h3]
    · have : ⌊(x - y) / L + 1 / 2⌋ = 1 := by
        rw [Int.floor_eq_iff]
        have e1 : (1 : ℝ) / 2 ≤ (x - y) / L := by rw [le_div_iff₀ hL]; linarith
        have e2 : (x - y) / L < 1 := by rw [div_lt_one hL]; linarith
        constructor <;> push_cast <;> linarith
      simp only [periodify, if_neg hp, this]
      push_cast; ring
  · refine ⟨x - y, ?_, ?_⟩
    · have h3 : ¬ x - y < -(L * (1 / 2)) := by linarith
      simp only [periodicDist, downLoop, if_neg h1, ok_bind, upLoop, if_neg h3]
    · by_cases h2 : x - y = L / 2
      · have : ⌊(x - y) / L + 1 / 2⌋ = 1 := by
          rw [h2, Int.floor_eq_iff]
          have e1 : L / 2 / L = 1 / 2 := by field_simp
          rw [e1]; norm_num
        simp only [periodify, if_neg hp, this]
        rw [h2]; push_cast; ring
      · have : ⌊(x - y) / L + 1 / 2⌋ = 0 := by
          rw [Int.floor_eq_iff]
          have h4 : x - y < L / 2 := lt_of_le_of_ne (by linarith) h2
          have e1 : (x - y) / L < 1 / 2 := by rw [div_lt_iff₀ hL]; linarith
          have e2 : -(1 / 2) ≤ (x - y) / L := by rw [le_div_iff₀ hL]; linarith
          constructor <;> push_cast <;> linarith
        simp only [periodify, if_neg hp, this]
        push_cast; ring

theorem dist_any {L x y : ℝ} (hL : 0 < L) (hb : |x - y| < L) (fuel : Nat) : ∃ d, periodicDist (fuel + 1) x y L = .ok d := by
  by_cases hr : -(L / 2) ≤ x - y
  · obtain ⟨d, h, _⟩ := dist_seen hL hb hr fuel; exact ⟨d, h⟩
  · exact ⟨L, (C149_assign_counterexample x y L hL (by linarith) fuel).1⟩

theorem pairSq_seen {L : ℝ} {a b : Fin 3 → ℝ} (hL : 0 < L) (hb : ∀ k, |a k - b k| < L) (hr : Reach L a b) (fuel : Nat) :
    pairSq (fuel + 1) L a b = .ok (∑ k, periodify (b k) (a k) L ^ 2) := by
  obtain ⟨d0, h0, e0⟩ := dist_seen hL (hb 0) (hr 0) fuel
  obtain ⟨d1, h1, e1⟩ := dist_seen hL (hb 1) (hr 1) fuel
  obtain ⟨d2, h2, e2⟩ := dist_seen hL (hb 2) (hr 2) fuel
  have e : List.finRange 3 = [0, 1, 2] := by decide
  rw [pairSq, e]
  simp only [List.foldlM_cons, List.foldlM_nil, h0, h1, h2, ok_bind, pure_eq_ok, e0, e1, e2, Fin.sum_univ_three, zero_add]

theorem pairSq_unseen {L : ℝ} {a b : Fin 3 → ℝ} (hL : 0 < L) (hb : ∀ k, |a k - b k| < L) (hr : ¬ Reach L a b) (fuel : Nat) :
    ∃ x, pairSq (fuel + 1) L a b = .ok x ∧ L ^ 2 ≤ x := by
  obtain ⟨d0, h0⟩ := dist_any hL (hb 0) fuel
  obtain ⟨d1, h1⟩ := dist_any hL (hb 1) fuel
  obtain ⟨d2, h2⟩ := dist_any hL (hb 2) fuel
  have e : List.finRange 3 = [0, 1, 2] := by decide
  refine ⟨0 + d0 ^ 2 + d1 ^ 2 + d2 ^ 2, ?_, ?_⟩
  · rw [pairSq, e]
    simp only [List.foldlM_cons, List.foldlM_nil, h0, h1, h2, ok_bind, pure_eq_ok]
  · simp only [Reach, not_forall, not_le] at hr
    obtain ⟨k, hk⟩ := hr
    have hk' := (C149_assign_counterexample _ _ L hL hk fuel).1
    have hd : d0 = L ∨ d1 = L ∨ d2 = L := by
      match k with
      | 0 => rw [hk'] at h0; left; injection h0 with h; exact h.symm
      | 1 => rw [hk'] at h1; right; left; injection h1 with h; exact h.symm
      | 2 => rw [hk'] at h2; right; right; injection h2 with h; exact h.symm
    have := sq_nonneg d0
    have := sq_nonneg d1
    have := sq_nonneg d2
    rcases hd with h | h | h <;> rw [h] at * <;> linarith

/-- What the loops do with a pair. -/
theorem pair_bin {L m : ℝ} {n : Nat} {a b : Fin 3 → ℝ} (hL : 0 < L) (hm : 0 < m) (hmL : m ≤ L) (hn : 0 < n) (hb : ∀ k, |a k - b k| < L) (fuel : Nat) :
    ∃ x, pairSq (fuel + 1) L a b = .ok x ∧ (1 ≤ x * (1 / m ^ 2) → ∀ r < n, ¬ (Reach L a b ∧ Shell L m n a b r)) ∧
      (¬ 1 ≤ x * (1 / m ^ 2) → ⌊Real.sqrt (x * (1 / m ^ 2)) * n⌋₊ < n ∧
        ∀ r, ⌊Real.sqrt (x * (1 / m ^ 2)) * n⌋₊ = r ↔ (Reach L a b ∧ Shell L m n a b r)) := by
  by_cases hr : Reach L a b
  · refine ⟨_, pairSq_seen hL hb hr fuel, ?_, ?_⟩
    · intro h r hrn hs
      exact Pairs.not_bin hn hm h hrn hs.2.2
    · intro h
      refine ⟨Pairs.bin_lt hn (not_le.1 h), fun r => ?_⟩
      rw [Pairs.bin_iff hn hm]
      simp only [Shell, imgDist, hr, true_and]
  · obtain ⟨x, h1, h2⟩ := pairSq_unseen hL hb hr fuel
    refine ⟨x, h1, fun _ r _ h => hr h.1, fun h => absurd ?_ h⟩
    rw [mul_one_div, le_div_iff₀ (by positivity), one_mul]
    nlinarith

open Classical in
/-- The ordered pairs of distinct particles whose distance is in the bin `r`. -/
noncomputable def counted (L m : ℝ) (n : Nat) (pos : List (Fin 3 → ℝ)) (r : Nat) : Finset (Nat × Nat) :=
  (Finset.range pos.length ×ˢ Finset.range pos.length).filter fun p =>
    p.1 ≠ p.2 ∧ ∃ a b, pos[p.1]? = some a ∧ pos[p.2]? = some b ∧ Reach L a b ∧ Shell L m n a b r

theorem mem_counted {L m : ℝ} {n : Nat} {pos : List (Fin 3 → ℝ)} {r i j : Nat} {a b : Fin 3 → ℝ} (hi : pos[i]? = some a) (hj : pos[j]? = some b) :
    (i, j) ∈ counted L m n pos r ↔ i ≠ j ∧ Reach L a b ∧ Shell L m n a b r := by
  have h1 := (List.getElem?_eq_some_iff.1 hi).1
  have h2 := (List.getElem?_eq_some_iff.1 hj).1
  simp only [counted, Finset.mem_filter, Finset.mem_product, Finset.mem_range, h1, h2, true_and, hi, hj]
  constructor
  · rintro ⟨h, a', b', ha, hb, h3⟩
    injection ha with ha; injection hb with hb
    subst ha hb
    exact ⟨h, h3⟩
  · rintro ⟨h, h3⟩; exact ⟨h, a, b, rfl, rfl, h3⟩

theorem replicate_eq_map {A : Type} (n : Nat) (x : A) : List.replicate n x = (List.range n).map fun _ => x := by
  refine List.ext_getElem? fun i => ?_
  by_cases hi : i < n <;> simp [hi]

open Classical in
theorem correlStep_eq {L m : ℝ} {n M : Nat} {pos : List (Fin 3 → ℝ)} {field : List ℝ} (hL : 0 < L) (hm : 0 < m) (hmL : m ≤ L) (hn : 0 < n)
    (hbox : InBox L pos) (hf : field.length = pos.length) (base : Nat → Nat → Nat) (hM : ∀ i j, base i j + n ≤ M) (fuel : Nat)
    {i j : Nat} (hi : i < pos.length) (hj : j < pos.length) (f : Nat → Nat × ℝ) :
    correlStep (fuel + 1) pos field n L (1 / m ^ 2) base i ((List.range M).map f) j = .ok ((List.range M).map fun y => f y +
      if base i j ≤ y ∧ y < base i j + n ∧ (i, j) ∈ counted L m n pos (y - base i j) then (1, field.getD i 0 * field.getD j 0) else 0) := by
  have ha : pos[i]? = some pos[i] := List.getElem?_eq_getElem hi
  have hb : pos[j]? = some pos[j] := List.getElem?_eq_getElem hj
  simp only [mem_counted ha hb]
  by_cases hij : i = j
  · simp [correlStep, hij]
  obtain ⟨x, h1, h2, h3⟩ := pair_bin (n := n) hL hm hmL hn (hbox _ (List.getElem_mem hi) _ (List.getElem_mem hj)) fuel
  rw [correlStep, if_neg hij, getR_of_lt hi, getR_of_lt hj]
  simp only [ok_bind, h1]
  by_cases hx : 1 ≤ x * (1 / m ^ 2)
  · rw [if_pos hx]
    congr 1
    refine List.map_congr_left fun y _ => ?_
    rw [if_neg, add_zero]
    rintro ⟨e1, e2, _, e3⟩
    exact h2 hx _ (by omega) e3
  · rw [if_neg hx, getR_of_lt (by omega), getR_of_lt (by omega)]
    obtain ⟨h4, h5⟩ := h3 hx
    have hlt := hM i j
    simp only [ok_bind]
    rw [Pairs.modifyR_bins (by omega)]
    congr 1
    refine List.map_congr_left fun y _ => ?_
    congr 1
    have e1 : field.getD i 0 = field[i]'(by omega) := by simp [List.getD_eq_getElem?_getD, List.getElem?_eq_getElem (show i < field.length by omega)]
    have e2 : field.getD j 0 = field[j]'(by omega) := by simp [List.getD_eq_getElem?_getD, List.getElem?_eq_getElem (show j < field.length by omega)]
    rw [e1, e2]
    refine if_congr ?_ rfl rfl
    constructor
    · intro h; exact ⟨by omega, by omega, hij, (h5 _).1 (by omega)⟩
    · rintro ⟨g1, g2, _, g3⟩
      have := (h5 _).2 g3
      omega

open Classical in
theorem correl_eq {L m : ℝ} {n M : Nat} {pos : List (Fin 3 → ℝ)} {field : List ℝ} (hL : 0 < L) (hm : 0 < m) (hmL : m ≤ L) (hn : 0 < n)
    (hbox : InBox L pos) (hf : field.length = pos.length) (base : Nat → Nat → Nat) (hM : ∀ i j, base i j + n ≤ M) (fuel : Nat) :
    (List.range pos.length).foldlM (fun gh i => (List.range pos.length).foldlM (correlStep (fuel + 1) pos field n L (1 / m ^ 2) base i) gh)
      (List.replicate M 0) = .ok ((List.range M).map fun y => ∑ p ∈ Finset.range pos.length ×ˢ Finset.range pos.length,
        if base p.1 p.2 ≤ y ∧ y < base p.1 p.2 + n ∧ p ∈ counted L m n pos (y - base p.1 p.2) then (1, field.getD p.1 0 * field.getD p.2 0)
        else (0 : Nat × ℝ)) := by
  rw [replicate_eq_map, Pairs.fold_add M _ (fun i y => ((List.range pos.length).map fun j =>
      if base i j ≤ y ∧ y < base i j + n ∧ (i, j) ∈ counted L m n pos (y - base i j) then (1, field.getD i 0 * field.getD j 0)
        else (0 : Nat × ℝ)).sum)]
  · congr 1
    refine List.map_congr_left fun y _ => ?_
    rw [zero_add, Pairs.list_sum_range, Finset.sum_product]
    refine Finset.sum_congr rfl fun i _ => ?_
    rw [Pairs.list_sum_range]
  · intro i hi f
    rw [Pairs.fold_add M _ (fun j y => if base i j ≤ y ∧ y < base i j + n ∧ (i, j) ∈ counted L m n pos (y - base i j) then
      (1, field.getD i 0 * field.getD j 0) else (0 : Nat × ℝ))]
    intro j hj f
    exact correlStep_eq hL hm hmL hn hbox hf base hM fuel (List.mem_range.1 hi) (List.mem_range.1 hj) f

theorem counted_sub (L m : ℝ) (n : Nat) (pos : List (Fin 3 → ℝ)) (r : Nat) :
    counted L m n pos r ⊆ Finset.range pos.length ×ˢ Finset.range pos.length := by
  classical
  intro p hp
  unfold counted at hp
  exact (Finset.mem_filter.1 hp).1

/-- C224. In a periodic box, `get_space_correl` gives for each bin the number of ordered pairs of distinct particles whose distance to the nearest
image is in the bin, and the sum of the products of their values; but only among the pairs where no coordinate of the first is below the one of
the second by more than half the box. -/
theorem C224_correl_partial {L : ℝ} {n : Nat} {pos : List (Fin 3 → ℝ)} {field : List ℝ} (hL : 0 < L) (hn : 0 < n) (hbox : InBox L pos)
    (hf : field.length = pos.length) (fuel : Nat) : ∃ res, spaceCorrel (fuel + 1) pos field n L = .ok res ∧ res.length = n ∧
      ∀ r < n, res[r]? = some ((counted L (L / 2) n pos r).card, ∑ p ∈ counted L (L / 2) n pos r, field.getD p.1 0 * field.getD p.2 0) := by
  classical
  refine ⟨_, correl_eq hL (by linarith : 0 < L / 2) (by linarith) hn hbox hf (fun _ _ => 0) (M := n) (by simp) fuel, by simp, fun r hr => ?_⟩
  simp only [List.getElem?_map, List.getElem?_range hr, Option.map_some, Nat.zero_le, zero_add, hr, true_and, Nat.sub_zero]
  rw [← Finset.sum_filter, Finset.filter_mem_eq_inter, Finset.inter_eq_right.2 (counted_sub _ _ _ _ _)]
  congr 1
  ext
  · rw [Prod.fst_sum]; simp
  · rw [Prod.snd_sum]

/-- C224. In `get_space_correl_binary` the four rows are the same sums among the pairs of each kind: both before `sep`, only the first, only the
second, none. -/
theorem C224_binary_partial {L : ℝ} {n : Nat} {pos : List (Fin 3 → ℝ)} {field : List ℝ} (hL : 0 < L) (hn : 0 < n) (hbox : InBox L pos)
    (hf : field.length = pos.length) (sep fuel : Nat) : ∃ res, spaceCorrelBinary (fuel + 1) pos field n L sep = .ok res ∧ res.length = 4 * n ∧
      ∀ u < 2, ∀ v < 2, ∀ r < n, res[(2 * u + v) * n + r]? =
        some (((counted L (L / 2) n pos r).filter fun p => (u = 0 ↔ p.1 < sep) ∧ (v = 0 ↔ p.2 < sep)).card,
          ∑ p ∈ (counted L (L / 2) n pos r).filter (fun p => (u = 0 ↔ p.1 < sep) ∧ (v = 0 ↔ p.2 < sep)), field.getD p.1 0 * field.getD p.2 0) := by
  classical
  have hsp : ∀ i j, species sep i j < 4 := by intro i j; unfold species; split_ifs <;> omega
  refine ⟨_, correl_eq hL (by linarith : 0 < L / 2) (by linarith) hn hbox hf (fun i j => species sep i j * n) (M := 4 * n)
    (fun i j => by have := hsp i j; nlinarith) fuel, by simp, fun u hu v hv r hr => ?_⟩
  have hlt : (2 * u + v) * n + r < 4 * n := by nlinarith
  simp only [List.getElem?_map, List.getElem?_range hlt, Option.map_some]
  have key : ∀ p : Nat × Nat, (species sep p.1 p.2 * n ≤ (2 * u + v) * n + r ∧ (2 * u + v) * n + r < species sep p.1 p.2 * n + n ∧
      p ∈ counted L (L / 2) n pos ((2 * u + v) * n + r - species sep p.1 p.2 * n)) ↔
      p ∈ (counted L (L / 2) n pos r).filter fun p => (u = 0 ↔ p.1 < sep) ∧ (v = 0 ↔ p.2 < sep) := by
    intro p
    have hs : (species sep p.1 p.2 * n ≤ (2 * u + v) * n + r ∧ (2 * u + v) * n + r < species sep p.1 p.2 * n + n) ↔
        species sep p.1 p.2 = 2 * u + v := by
      constructor
      · rintro ⟨h1, h2⟩
        have e1 : species sep p.1 p.2 < 2 * u + v + 1 := by
          by_contra h
          have : (2 * u + v + 1) * n ≤ species sep p.1 p.2 * n := Nat.mul_le_mul_right _ (by omega)
          nlinarith
        have e2 : 2 * u + v < species sep p.1 p.2 + 1 := by
          by_contra h
          have : (species sep p.1 p.2 + 1) * n ≤ (2 * u + v) * n := Nat.mul_le_mul_right _ (by omega)
          nlinarith
        omega
      · intro h; rw [h]; omega
    have hs2 : species sep p.1 p.2 = 2 * u + v ↔ (u = 0 ↔ p.1 < sep) ∧ (v = 0 ↔ p.2 < sep) := by
      unfold species
      split_ifs <;> omega
    rw [← and_assoc, hs, Finset.mem_filter, ← hs2]
    constructor
    · rintro ⟨h1, h2⟩
      rw [h1, Nat.add_sub_cancel_left] at h2
      exact ⟨h2, h1⟩
    · rintro ⟨h2, h1⟩
      rw [h1, Nat.add_sub_cancel_left]
      exact ⟨rfl, h2⟩
  simp only [key]
  rw [← Finset.sum_filter, Finset.filter_mem_eq_inter, Finset.inter_eq_right.2 ((Finset.filter_subset _ _).trans (counted_sub _ _ _ _ _))]
  congr 1
  ext
  · rw [Prod.fst_sum]; simp
  · rw [Prod.snd_sum]

theorem imgDist_comm {L : ℝ} (hL : 0 < L) (a b : Fin 3 → ℝ) : imgDist L b a = imgDist L a b := by
  unfold imgDist
  congr 1
  refine Finset.sum_congr rfl fun k _ => ?_
  rw [← sq_abs, (C149_symmetric (a k) (b k) L hL 0).1, sq_abs]

theorem reach_pair {L : ℝ} {a b : Fin 3 → ℝ} (h : ∃ k, a k - b k < -(L / 2)) : ¬ Reach L a b := by
  rintro h'
  obtain ⟨k, hk⟩ := h
  have := h' k
  linarith

open Classical in
/-- C224, the part that is false. Two particles that are close through a face of the box are counted in one order at most instead of two, and not at
all if they are also close through a face in the other direction along another axis. -/
theorem C224_crossing_counterexample {L : ℝ} {n : Nat} {a b : Fin 3 → ℝ} {x y : ℝ} (hL : 0 < L) (hn : 0 < n) (hbox : ∀ k, |a k - b k| < L)
    (hd : imgDist L a b < L / 2) (hk : ∃ k, a k - b k < -(L / 2)) (fuel : Nat) :
    ∃ res r, spaceCorrel (fuel + 1) [a, b] [x, y] n L = .ok res ∧ r < n ∧ Shell L (L / 2) n a b r ∧ Shell L (L / 2) n b a r ∧
      res[r]? = some (if ∃ k, L / 2 < a k - b k then (0, 0) else (1, y * x)) := by
  have hn' : (0 : ℝ) < n := by exact_mod_cast hn
  have hb : InBox L [a, b] := by
    have h2 : ∀ k, |b k - a k| < L := fun k => by rw [abs_sub_comm]; exact hbox k
    intro u hu v hv k
    simp only [List.mem_cons, List.not_mem_nil, or_false] at hu hv
    rcases hu with rfl | rfl <;> rcases hv with rfl | rfl
    · simpa using hL
    · exact hbox k
    · exact h2 k
    · simpa using hL
  obtain ⟨res, h1, _, h3⟩ := C224_correl_partial (field := [x, y]) hL hn hb rfl fuel
  have hw : 0 < L / 2 / n := by positivity
  have h0 : 0 ≤ imgDist L a b := Real.sqrt_nonneg _
  let r := ⌊imgDist L a b / (L / 2 / n)⌋₊
  have hr1 := Nat.floor_le (div_nonneg h0 hw.le)
  have hr2 := Nat.lt_floor_add_one (imgDist L a b / (L / 2 / n))
  rw [le_div_iff₀ hw] at hr1
  rw [div_lt_iff₀ hw] at hr2
  have hs : Shell L (L / 2) n a b r := ⟨hr1, hr2⟩
  have hs' : Shell L (L / 2) n b a r := by
    unfold Shell; rw [imgDist_comm hL]; exact hs
  have hrn : r < n := by
    rw [Nat.floor_lt (div_nonneg h0 hw.le), div_lt_iff₀ hw, mul_div_cancel₀ _ hn'.ne']
    exact hd
  refine ⟨res, r, h1, hrn, hs, hs', ?_⟩
  rw [h3 r hrn]
  have hab : (0, 1) ∉ counted L (L / 2) n [a, b] r := by
    rw [mem_counted (a := a) (b := b) rfl rfl]
    exact fun h => reach_pair hk h.2.1
  have hba : (1, 0) ∈ counted L (L / 2) n [a, b] r ↔ ¬ ∃ k, L / 2 < a k - b k := by
    rw [mem_counted (a := b) (b := a) rfl rfl]
    constructor
    · rintro ⟨_, h, _⟩ ⟨k, hk⟩
      have := h k
      linarith
    · intro h
      push Not at h
      exact ⟨by decide, fun k => by have := h k; linarith, hs'⟩
  have hsub : ∀ p ∈ counted L (L / 2) n [a, b] r, p = (1, 0) := by
    rintro ⟨i, j⟩ hp
    have hp' := counted_sub _ _ _ _ _ hp
    simp only [Finset.mem_product, Finset.mem_range, List.length_cons, List.length_nil] at hp'
    have hne : i ≠ j := by
      rintro rfl
      unfold counted at hp
      exact (Finset.mem_filter.1 hp).2.1 rfl
    have : i = 0 ∧ j = 1 ∨ i = 1 ∧ j = 0 := by omega
    rcases this with ⟨rfl, rfl⟩ | ⟨rfl, rfl⟩
    · exact absurd hp hab
    · rfl
  by_cases hc : ∃ k, L / 2 < a k - b k
  · have : counted L (L / 2) n [a, b] r = ∅ := by
      refine Finset.eq_empty_of_forall_notMem fun p hp => ?_
      have e := hsub p hp
      rw [e] at hp
      exact hba.1 hp hc
    rw [this, if_pos hc]; simp
  · have : counted L (L / 2) n [a, b] r = {(1, 0)} := by
      ext p
      rw [Finset.mem_singleton]
      exact ⟨hsub p, fun h => h ▸ hba.2 hc⟩
    rw [this, if_neg hc]; simp

/-- For instance two particles at a distance 2 through a face of a box of side 10. -/
example : (∀ k : Fin 3, |(![1, 1, 1] : Fin 3 → ℝ) k - ![9, 1, 1] k| < 10) ∧
    imgDist 10 ![1, 1, 1] ![9, 1, 1] < 10 / 2 ∧ ∃ k : Fin 3, (![1, 1, 1] : Fin 3 → ℝ) k - ![9, 1, 1] k < -(10 / 2) := by
  refine ⟨?_, ?_, 0, by norm_num⟩
  · intro k; fin_cases k <;> norm_num [abs_lt]
  · unfold imgDist
    rw [Real.sqrt_lt' (by norm_num), Fin.sum_univ_three]
    have e1 : (![1, 1, 1] : Fin 3 → ℝ) 2 = 1 := rfl
    have e2 : (![9, 1, 1] : Fin 3 → ℝ) 2 = 1 := rfl
    rw [e1, e2]
    unfold periodify
    norm_num

example : InBox 10 [fun _ => 1, fun _ => (2 : ℝ)] ∧ ([3, 4] : List ℝ).length = 2 := by
  refine ⟨?_, rfl⟩
  intro u hu v hv k
  simp only [List.mem_cons, List.not_mem_nil, or_false] at hu hv
  rcases hu with rfl | rfl <;> rcases hv with rfl | rfl <;> norm_num [abs_lt]

/-! ## C225 -/

open Classical in
theorem record_eq {L m : ℝ} {n M base : Nat} {a b : Fin 3 → ℝ} (hL : 0 < L) (hm : 0 < m) (hmL : m ≤ L) (hn : 0 < n) (hb : ∀ k, |a k - b k| < L)
    (hM : base + n ≤ M) (fuel : Nat) (f : Nat → Nat) :
    (do let disq ← pairSq (fuel + 1) L a b
        record (disq * (1 / m ^ 2)) n base ((List.range M).map f)) =
      .ok ((List.range M).map fun y => f y + if base ≤ y ∧ y < base + n ∧ Reach L a b ∧ Shell L m n a b (y - base) then 1 else 0) := by
  obtain ⟨x, h1, h2, h3⟩ := pair_bin (n := n) hL hm hmL hn hb fuel
  simp only [h1, ok_bind, record]
  by_cases hx : 1 ≤ x * (1 / m ^ 2)
  · rw [if_pos hx]
    congr 1
    refine List.map_congr_left fun y _ => ?_
    rw [if_neg, add_zero]
    rintro ⟨e1, e2, e3⟩
    exact h2 hx _ (by omega) e3
  · rw [if_neg hx]
    obtain ⟨h4, h5⟩ := h3 hx
    rw [Pairs.modifyR_bins (by omega)]
    congr 1
    refine List.map_congr_left fun y _ => ?_
    congr 1
    refine if_congr ?_ rfl rfl
    constructor
    · intro h; exact ⟨by omega, by omega, (h5 _).1 (by omega)⟩
    · rintro ⟨g1, g2, g3⟩
      have := (h5 _).2 g3
      omega

open Classical in
/-- C225. `get_rdf(p, pos, ...)` counts in each bin the particles at that distance of the point whose three coordinates are equal to `p`, but only those
that are not above it by more than half the box. In particular `p` is not the index of a particle. -/
theorem C225_rdf_partial {L p : ℝ} {n : Nat} {pos : List (Fin 3 → ℝ)} {maxdist : Option ℝ} (hL : 0 < L) (hm : 0 < maxdist.getD (L / 2))
    (hmL : maxdist.getD (L / 2) ≤ L) (hn : 0 < n) (hbox : ∀ b ∈ pos, ∀ k, |p - b k| < L) (fuel : Nat) :
    ∃ g, getRdf (fuel + 1) p pos n L maxdist = .ok g ∧ g.length = n ∧ ∀ r < n, g[r]? = some
      (pos.countP fun b => decide (Reach L (fun _ => p) b ∧ Shell L (maxdist.getD (L / 2)) n (fun _ => p) b r)) := by
  refine ⟨(List.range n).map fun y => 0 + ((List.range pos.length).map fun j =>
    if Reach L (fun _ => p) (pos.getD j 0) ∧ Shell L (maxdist.getD (L / 2)) n (fun _ => p) (pos.getD j 0) y then 1 else 0).sum, ?_, ?_, ?_⟩
  · rw [getRdf, replicate_eq_map]
    refine Pairs.fold_add n _ (fun j y => if Reach L (fun _ => p) (pos.getD j 0) ∧ Shell L (maxdist.getD (L / 2)) n (fun _ => p) (pos.getD j 0) y then 1 else 0) _
      (fun j hj f => ?_) _
    have hj := List.mem_range.1 hj
    rw [getR_of_lt hj, ok_bind, record_eq hL hm hmL hn (hbox _ (List.getElem_mem hj)) (by omega)]
    congr 1
    refine List.map_congr_left fun y hy => ?_
    have hy := List.mem_range.1 hy
    congr 1
    refine if_congr ?_ rfl rfl
    rw [List.getD_eq_getElem?_getD, List.getElem?_eq_getElem hj, Option.getD_some]
    simp [hy]
  · simp
  · intro r hr
    simp only [List.getElem?_map, List.getElem?_range hr, Option.map_some, zero_add]
    congr 1
    rw [List.countP_eq_length_filter]
    clear hbox
    induction pos using List.reverseRecOn with
    | nil => simp
    | append_singleton l x ih =>
      rw [List.length_append, List.length_singleton, List.range_succ, List.map_append, List.sum_append, List.filter_append, List.length_append, ← ih]
      congr 1
      · refine congrArg List.sum (List.map_congr_left fun j hj => ?_)
        rw [List.getD_eq_getElem?_getD, List.getD_eq_getElem?_getD, List.getElem?_append_left (List.mem_range.1 hj)]
      · by_cases hx : Reach L (fun _ => p) x ∧ Shell L (maxdist.getD (L / 2)) n (fun _ => p) x r <;> simp [hx]

open Classical in
theorem binaryStep_eq {L m : ℝ} {n : Nat} {pos : List (Fin 3 → ℝ)} (hL : 0 < L) (hm : 0 < m) (hmL : m ≤ L) (hn : 0 < n) (hbox : InBox L pos)
    (c : Nat) (hc : c < 2) (fuel : Nat) {i j : Nat} (hi : i < pos.length) (hj : j < pos.length) (f : Nat → Nat) :
    binaryStep (fuel + 1) pos n L (1 / m ^ 2) c i ((List.range (pos.length * 2 * n)).map f) j =
      .ok ((List.range (pos.length * 2 * n)).map fun y => f y +
        if (2 * i + c) * n ≤ y ∧ y < (2 * i + c) * n + n ∧ (i, j) ∈ counted L m n pos (y - (2 * i + c) * n) then 1 else 0) := by
  have ha : pos[i]? = some pos[i] := List.getElem?_eq_getElem hi
  have hb : pos[j]? = some pos[j] := List.getElem?_eq_getElem hj
  simp only [mem_counted ha hb]
  by_cases hij : i = j
  · simp [binaryStep, hij]
  have hM : (2 * i + c) * n + n ≤ pos.length * 2 * n := by
    have : (2 * i + c + 1) * n ≤ (pos.length * 2) * n := Nat.mul_le_mul_right _ (by omega)
    linarith
  rw [binaryStep, if_neg hij, getR_of_lt hi, getR_of_lt hj]
  simp only [ok_bind]
  rw [record_eq hL hm hmL hn (hbox _ (List.getElem_mem hi) _ (List.getElem_mem hj)) hM]
  congr 1
  refine List.map_congr_left fun y _ => ?_
  simp [hij]

theorem slot {n a b r : Nat} (hr : r < n) : (a * n ≤ b * n + r ∧ b * n + r < a * n + n) ↔ a = b := by
  constructor
  · rintro ⟨h1, h2⟩
    have e1 : a < b + 1 := by
      by_contra h
      have : (b + 1) * n ≤ a * n := Nat.mul_le_mul_right _ (by omega)
      nlinarith
    have e2 : b < a + 1 := by
      by_contra h
      have : (a + 1) * n ≤ b * n := Nat.mul_le_mul_right _ (by omega)
      nlinarith
    omega
  · rintro rfl; omega

open Classical in
/-- C225. `get_binary_rdf` gives for each particle, for each of the two species and for each bin, the number of other particles of the species in
the bin; but only among those that are not above it by more than half the box in a direction. -/
theorem C225_binary_partial {L : ℝ} {n sep : Nat} {pos : List (Fin 3 → ℝ)} {maxdist : Option ℝ} (hL : 0 < L) (hm : 0 < maxdist.getD (L / 2))
    (hmL : maxdist.getD (L / 2) ≤ L) (hn : 0 < n) (hbox : InBox L pos) (hsep : sep ≤ pos.length) (fuel : Nat) :
    ∃ g, getBinaryRdf (fuel + 1) pos n L sep maxdist = .ok g ∧ g.length = pos.length * 2 * n ∧
      ∀ i < pos.length, ∀ c < 2, ∀ r < n, g[(2 * i + c) * n + r]? = some
        (((Finset.range pos.length).filter fun j => (i, j) ∈ counted L (maxdist.getD (L / 2)) n pos r ∧ (c = 0 ↔ j < sep)).card) := by
  set m := maxdist.getD (L / 2) with hmdef
  let M := pos.length * 2 * n
  let t : Nat → Nat → Nat → Nat → Nat := fun c i j y =>
    if (2 * i + c) * n ≤ y ∧ y < (2 * i + c) * n + n ∧ (i, j) ∈ counted L m n pos (y - (2 * i + c) * n) then 1 else 0
  refine ⟨(List.range M).map fun y => 0 + ((List.range pos.length).map fun i =>
    ((List.range sep).map fun j => t 0 i j y).sum + ((List.range' sep (pos.length - sep)).map fun j => t 1 i j y).sum).sum, ?_, by simp [M], ?_⟩
  · rw [getBinaryRdf, replicate_eq_map]
    refine Pairs.fold_add M _ (fun i y => ((List.range sep).map fun j => t 0 i j y).sum +
      ((List.range' sep (pos.length - sep)).map fun j => t 1 i j y).sum) _ (fun i hi f => ?_) _
    have hi := List.mem_range.1 hi
    have e1 := Pairs.fold_add M (binaryStep (fuel + 1) pos n L (1 / m ^ 2) 0 i) (t 0 i) (List.range sep)
      (fun j hj f => binaryStep_eq hL hm hmL hn hbox 0 (by omega) fuel hi (by have := List.mem_range.1 hj; omega) f) f
    have e2 := Pairs.fold_add M (binaryStep (fuel + 1) pos n L (1 / m ^ 2) 1 i) (t 1 i) (List.range' sep (pos.length - sep))
      (fun j hj f => binaryStep_eq hL hm hmL hn hbox 1 (by omega) fuel hi (by have := List.mem_range'_1.1 hj; omega) f)
    simp only [← hmdef]
    rw [e1, ok_bind, e2]
    simp only [add_assoc]
  · intro i hi c hc r hr
    have hlt : (2 * i + c) * n + r < M := by
      have : (2 * i + c + 1) * n ≤ (pos.length * 2) * n := Nat.mul_le_mul_right _ (by omega)
      have : (2 * i + c + 1) * n = (2 * i + c) * n + n := by ring
      simp only [M]; omega
    simp only [List.getElem?_map, List.getElem?_range hlt, Option.map_some, zero_add]
    congr 1
    have ht : ∀ c' < 2, ∀ i' j, t c' i' j ((2 * i + c) * n + r) = if i' = i ∧ c' = c ∧ (i, j) ∈ counted L m n pos r then 1 else 0 := by
      intro c' hc' i' j
      simp only [t]
      refine if_congr ?_ rfl rfl
      rw [← and_assoc, slot hr]
      constructor
      · rintro ⟨h1, h2⟩
        have g1 : i' = i := by omega
        have g2 : c' = c := by omega
        subst g1 g2
        rw [Nat.add_sub_cancel_left] at h2
        exact ⟨rfl, rfl, h2⟩
      · rintro ⟨rfl, rfl, h2⟩
        rw [Nat.add_sub_cancel_left]
        exact ⟨rfl, h2⟩
    simp only [ht 0 (by omega), ht 1 (by omega)]
    rw [Pairs.list_sum_range, Finset.sum_eq_single i]
    · rw [Finset.card_filter, Pairs.list_sum_range, List.range'_eq_map_range, List.map_map, Pairs.list_sum_range]
      have hN : pos.length = sep + (pos.length - sep) := by omega
      rw [hN, Finset.sum_range_add, ← hN]
      congr 1
      · refine Finset.sum_congr rfl fun j hj => ?_
        have := Finset.mem_range.1 hj
        refine if_congr ?_ rfl rfl
        constructor
        · rintro ⟨_, h, h'⟩; exact ⟨h', by omega⟩
        · rintro ⟨h', h⟩; exact ⟨rfl, by omega, h'⟩
      · refine Finset.sum_congr rfl fun j _ => ?_
        refine if_congr ?_ rfl rfl
        constructor
        · rintro ⟨_, h, h'⟩; exact ⟨h', by omega⟩
        · rintro ⟨h', h⟩; exact ⟨rfl, by omega, h'⟩
    · intro i' _ hne
      simp [hne]
    · intro h; exact absurd (Finset.mem_range.2 hi) h

/-- C225, the part that is false. When `sep` is larger than the number of particles, as the default 800 may be, positions are read out of the array. -/
theorem C225_sep_counterexample {L : ℝ} {n sep : Nat} {pos : List (Fin 3 → ℝ)} {maxdist : Option ℝ} (hL : 0 < L) (hm : 0 < maxdist.getD (L / 2))
    (hmL : maxdist.getD (L / 2) ≤ L) (hn : 0 < n) (hbox : InBox L pos) (hp : 0 < pos.length) (hsep : pos.length < sep) (fuel : Nat) :
    getBinaryRdf (fuel + 1) pos n L sep maxdist = .error .ub := by
  classical
  obtain ⟨N, hN⟩ : ∃ N, pos.length = N + 1 := ⟨pos.length - 1, by omega⟩
  obtain ⟨s, hs⟩ : ∃ s, sep = pos.length + (s + 1) := ⟨sep - pos.length - 1, by omega⟩
  have e1 := Pairs.fold_add (pos.length * 2 * n) (binaryStep (fuel + 1) pos n L (1 / (maxdist.getD (L / 2)) ^ 2) 0 0) _ (List.range pos.length)
      (fun j hj f => binaryStep_eq hL hm hmL hn hbox 0 (by omega) fuel hp (List.mem_range.1 hj) f) (fun _ => 0)
  have e2 : ∀ g, binaryStep (fuel + 1) pos n L (1 / (maxdist.getD (L / 2)) ^ 2) 0 0 g pos.length = .error .ub := by
    intro g
    rw [binaryStep, if_neg (by omega), getR_of_lt hp, ok_bind, getR_eq_ub (by omega), error_bind]
  have e3 : (List.range sep).foldlM (binaryStep (fuel + 1) pos n L (1 / (maxdist.getD (L / 2)) ^ 2) 0 0) (List.replicate (pos.length * 2 * n) 0) = .error .ub := by
    rw [hs, List.range_add, List.foldlM_append, replicate_eq_map, e1, ok_bind, List.range_succ_eq_map, List.map_cons, List.foldlM_cons, Nat.add_zero pos.length, e2,
      error_bind]
  rw [getBinaryRdf]
  conv_lhs => rw [hN, List.range_succ_eq_map, List.foldlM_cons, ← hN]
  rw [e3, error_bind, error_bind]

example : InBox 10 [fun _ => 1, fun _ => (2 : ℝ)] ∧ 0 < (none : Option ℝ).getD (10 / 2) ∧ (none : Option ℝ).getD (10 / 2) ≤ 10 ∧
    ([fun _ => 1, fun _ => (2 : ℝ)] : List (Fin 3 → ℝ)).length < 800 := by
  refine ⟨?_, by norm_num, by norm_num, by norm_num⟩
  intro u hu v hv k
  simp only [List.mem_cons, List.not_mem_nil, or_false] at hu hv
  rcases hu with rfl | rfl <;> rcases hv with rfl | rfl <;> norm_num [abs_lt]

end Pbox
end Py
end Colloids
