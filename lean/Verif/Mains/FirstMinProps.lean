import Verif.Mains.FirstMinModel
import Verif.CommonLemmas
import Mathlib.Algebra.Order.Ring.Rat
import Mathlib.Algebra.Field.Rat
import Mathlib.Algebra.BigOperators.Group.List.Basic
import Mathlib.Tactic.NormNum
import Mathlib.Tactic.Ring
import Mathlib.Tactic.FieldSimp
import Mathlib.Tactic.Linarith

/-! # C106, C107: the bond length from g(r), and the average g(r) -/

namespace Colloids
namespace Mains

variable {G : Type} [Field G] [LinearOrder G]

/-- `p` is the first of the highest bins of `g`. -/
def HighestBin (g : List G) (p : Nat) : Prop :=
  ∃ x, g[p]? = some x ∧ (∀ (j : Nat) (y : G), g[j]? = some y → y ≤ x) ∧
    ∀ (j : Nat) (y : G), j < p → g[j]? = some y → y < x

/-- `m` is the first of the lowest bins of `g` among those from `p` on. -/
def LowestBinFrom (g : List G) (p m : Nat) : Prop :=
  p ≤ m ∧ ∃ x, g[m]? = some x ∧ (∀ (j : Nat) (y : G), p ≤ j → g[j]? = some y → x ≤ y) ∧
    ∀ (j : Nat) (y : G), p ≤ j → j < m → g[j]? = some y → x < y

theorem maxElementFrom_spec : ∀ (l pre : List G) (best : Nat) (m : G), best < pre.length →
    HighestBin pre best → pre[best]? = some m →
    HighestBin (pre ++ l) (maxElementFrom best m pre.length l) := by
  intro l
  induction l with
  | nil => intro pre best m _ h _; simpa [maxElementFrom] using h
  | cons x l ih =>
    intro pre best m hb h hm
    obtain ⟨m', hm', h1, h2⟩ := h
    rw [hm] at hm'
    cases hm'
    unfold maxElementFrom
    have e : pre ++ x :: l = (pre ++ [x]) ++ l := by simp
    have el : pre.length + 1 = (pre ++ [x]).length := by simp
    split
    · rename_i hlt
      rw [e, el]
      refine ih (pre ++ [x]) pre.length x (by simp) ⟨x, by simp, ?_, ?_⟩ (by simp)
      · intro j y hj
        rcases Nat.lt_trichotomy j pre.length with hlt' | rfl | hgt
        · rw [List.getElem?_append_left hlt'] at hj
          exact (h1 j y hj).trans hlt.le
        · rw [List.getElem?_append_right (Nat.le_refl _)] at hj
          simp at hj; exact hj.ge
        · rw [List.getElem?_eq_none (by simp; omega)] at hj; simp at hj
      · intro j y hj' hj
        rw [List.getElem?_append_left hj'] at hj
        exact (h1 j y hj).trans_lt hlt
    · rename_i hlt
      rw [e, el]
      refine ih (pre ++ [x]) best m (by simp; omega) ⟨m, ?_, ?_, ?_⟩ ?_
      · rw [List.getElem?_append_left hb, hm]
      · intro j y hj
        rcases Nat.lt_trichotomy j pre.length with hlt' | rfl | hgt
        · rw [List.getElem?_append_left hlt'] at hj
          exact h1 j y hj
        · rw [List.getElem?_append_right (Nat.le_refl _)] at hj
          simp at hj; rw [← hj]; exact not_lt.1 hlt
        · rw [List.getElem?_eq_none (by simp; omega)] at hj; simp at hj
      · intro j y hj' hj
        rw [List.getElem?_append_left (by omega)] at hj
        exact h2 j y hj' hj
      · rw [List.getElem?_append_left hb, hm]

theorem maxElement_spec {g : List G} (hg : g ≠ []) : HighestBin g (maxElement g) := by
  cases g with
  | nil => exact absurd rfl hg
  | cons x l =>
    have := maxElementFrom_spec l [x] 0 x (by simp) ⟨x, by simp, ?_, ?_⟩ (by simp)
    · simpa [maxElement] using this
    · intro j y hj
      cases j with
      | zero => simp at hj; exact hj.ge
      | succ j => simp at hj
    · intro j y hj; omega

theorem highestBin_unique {g : List G} {p q : Nat} (hp : HighestBin g p) (hq : HighestBin g q) : p = q := by
  obtain ⟨x, h1, h2, h3⟩ := hp
  obtain ⟨y, k1, k2, k3⟩ := hq
  rcases Nat.lt_trichotomy p q with h | h | h
  · exact absurd (k3 p x h h1) (not_lt.2 (h2 q y k1))
  · exact h
  · exact absurd (h3 q y h k1) (not_lt.2 (k2 p x h1))

theorem minElementFrom_spec : ∀ (l pre : List G) (best : Nat) (m : G), best < pre.length →
    LowestBinFrom pre 0 best → pre[best]? = some m →
    LowestBinFrom (pre ++ l) 0 (minElementFrom best m pre.length l) := by
  intro l
  induction l with
  | nil => intro pre best m _ h _; simpa [minElementFrom] using h
  | cons x l ih =>
    intro pre best m hb h hm
    obtain ⟨-, m', hm', h1, h2⟩ := h
    rw [hm] at hm'
    cases hm'
    unfold minElementFrom
    have e : pre ++ x :: l = (pre ++ [x]) ++ l := by simp
    have el : pre.length + 1 = (pre ++ [x]).length := by simp
    split
    · rename_i hlt
      rw [e, el]
      refine ih (pre ++ [x]) pre.length x (by simp) ⟨Nat.zero_le _, x, by simp, ?_, ?_⟩ (by simp)
      · intro j y _ hj
        rcases Nat.lt_trichotomy j pre.length with hlt' | rfl | hgt
        · rw [List.getElem?_append_left hlt'] at hj
          exact hlt.le.trans (h1 j y (Nat.zero_le _) hj)
        · rw [List.getElem?_append_right (Nat.le_refl _)] at hj
          simp at hj; exact hj.le
        · rw [List.getElem?_eq_none (by simp; omega)] at hj; simp at hj
      · intro j y _ hj' hj
        rw [List.getElem?_append_left hj'] at hj
        exact hlt.trans_le (h1 j y (Nat.zero_le _) hj)
    · rename_i hlt
      rw [e, el]
      refine ih (pre ++ [x]) best m (by simp; omega) ⟨Nat.zero_le _, m, ?_, ?_, ?_⟩ ?_
      · rw [List.getElem?_append_left hb, hm]
      · intro j y _ hj
        rcases Nat.lt_trichotomy j pre.length with hlt' | rfl | hgt
        · rw [List.getElem?_append_left hlt'] at hj
          exact h1 j y (Nat.zero_le _) hj
        · rw [List.getElem?_append_right (Nat.le_refl _)] at hj
          simp at hj; rw [← hj]; exact not_lt.1 hlt
        · rw [List.getElem?_eq_none (by simp; omega)] at hj; simp at hj
      · intro j y _ hj' hj
        rw [List.getElem?_append_left (by omega)] at hj
        exact h2 j y (Nat.zero_le _) hj' hj
      · rw [List.getElem?_append_left hb, hm]

theorem minElement_spec {g : List G} (hg : g ≠ []) : LowestBinFrom g 0 (minElement g) := by
  cases g with
  | nil => exact absurd rfl hg
  | cons x l =>
    have := minElementFrom_spec l [x] 0 x (by simp) ⟨Nat.zero_le _, x, by simp, ?_, ?_⟩ (by simp)
    · simpa [minElement] using this
    · intro j y _ hj
      cases j with
      | zero => simp at hj; exact hj.le
      | succ j => simp at hj
    · intro j y _ hj; omega

theorem lowest_from {g : List G} {p : Nat} (hp : p < g.length) :
    LowestBinFrom g p (p + minElement (g.drop p)) := by
  obtain ⟨-, x, h1, h2, h3⟩ := minElement_spec (g := g.drop p) (by
    intro h; have := congrArg List.length h; simp at this; omega)
  refine ⟨by omega, x, by rw [List.getElem?_drop] at h1; exact h1, ?_, ?_⟩
  · intro j y hj hy
    refine h2 (j - p) y (Nat.zero_le _) ?_
    rw [List.getElem?_drop, Nat.add_sub_cancel' hj]; exact hy
  · intro j y hj hlt hy
    refine h3 (j - p) y (Nat.zero_le _) (by omega) ?_
    rw [List.getElem?_drop, Nat.add_sub_cancel' hj]; exact hy

theorem lowest_unique {g : List G} {p m q : Nat} (hm : LowestBinFrom g p m) (hq : LowestBinFrom g p q) :
    m = q := by
  obtain ⟨h0, x, h1, h2, h3⟩ := hm
  obtain ⟨k0, y, k1, k2, k3⟩ := hq
  rcases Nat.lt_trichotomy m q with h | h | h
  · exact absurd (k3 m x h0 h h1) (not_lt.2 (h2 q y k0 k1))
  · exact h
  · exact absurd (h3 q y k0 h k1) (not_lt.2 (k2 m x h0 h1))

/-- What one turn of the loop finds. -/
theorem firstMin_step {g : List G} {p m : Nat} (hp : HighestBin g p) (hm : LowestBinFrom g p m)
    (fuel : Nat) : firstMin g (fuel + 1) = (do
      let v ← getR g m
      if v = 0 then firstMin g fuel else pure m) := by
  have hlen : p < g.length := by
    obtain ⟨x, h, -⟩ := hp
    exact (List.getElem?_eq_some_iff.1 h).1
  have e1 : maxElement g = p :=
    highestBin_unique (maxElement_spec (by rintro rfl; simp at hlen)) hp
  have e2 : p + minElement (g.drop p) = m := lowest_unique (lowest_from hlen) hm
  conv_lhs => unfold firstMin
  rw [e1]
  simp only [e2]

/-- **C106** (part) The bond length of a distribution is at its lowest bin among those from the highest bin
on, the first one if several, provided that bin is not empty. -/
theorem C106_bondLength_partial {g : List G} {p m : Nat} {x : G} (hp : HighestBin g p)
    (hm : LowestBinFrom g p m) (hx : g[m]? = some x) (h0 : x ≠ 0) (fuel : Nat) :
    bondLengthOf g (fuel + 1) = .ok ((m : G) / 200 * 15) := by
  unfold bondLengthOf
  rw [firstMin_step hp hm, getR_ok.2 hx, ok_bind, if_neg h0]
  rfl

/-- **C106** (part) It is at the first minimum after the first peak when `g` decreases from the peak to that
minimum and does not go below it afterwards. -/
theorem C106_firstMinimum_partial {g : List G} {p d : Nat} {x : G} (hp : HighestBin g p) (hpd : p ≤ d)
    (hx : g[d]? = some x) (h0 : x ≠ 0)
    (hdown : ∀ (j : Nat) (y : G), p ≤ j → j < d → g[j]? = some y → x < y)
    (hafter : ∀ (j : Nat) (y : G), d ≤ j → g[j]? = some y → x ≤ y) (fuel : Nat) :
    bondLengthOf g (fuel + 1) = .ok ((d : G) / 200 * 15) := by
  refine C106_bondLength_partial hp ⟨hpd, x, hx, ?_, hdown⟩ hx h0 fuel
  intro j y hj hy
  rcases Nat.lt_or_ge j d with h | h
  · exact (hdown j y hj h hy).le
  · exact hafter j y h hy

example : HighestBin ([0, 1/2, 3, 2, 1/2, 1, 1] : List ℚ) 2 ∧
    LowestBinFrom ([0, 1/2, 3, 2, 1/2, 1, 1] : List ℚ) 2 4 ∧
    bondLengthOf ([0, 1/2, 3, 2, 1/2, 1, 1] : List ℚ) 1 = .ok (3/10) := by
  have e1 : maxElement ([0, 1/2, 3, 2, 1/2, 1, 1] : List ℚ) = 2 := by decide +kernel
  have e2 : 2 + minElement (([0, 1/2, 3, 2, 1/2, 1, 1] : List ℚ).drop 2) = 4 := by decide +kernel
  have h1 : HighestBin ([0, 1/2, 3, 2, 1/2, 1, 1] : List ℚ) 2 := e1 ▸ maxElement_spec (by simp)
  have h2 : LowestBinFrom ([0, 1/2, 3, 2, 1/2, 1, 1] : List ℚ) 2 4 := e2 ▸ lowest_from (by simp)
  refine ⟨h1, h2, ?_⟩
  rw [C106_bondLength_partial h1 h2 (x := 1/2) (by simp) (by norm_num) 0]
  norm_num

/-- **C106** is false in general: the lowest bin after the peak is taken, wherever it is; a later bin lower
than the first minimum (4 here, the first minimum is 2) is taken instead of it. -/
theorem C106_far_counterexample :
    bondLengthOf ([0, 5, 1, 2, 1/2, 1] : List ℚ) 1 = .ok (4 / 200 * 15) ∧
    ([0, 5, 1, 2, 1/2, 1] : List ℚ)[1]? = some 5 ∧ ([0, 5, 1, 2, 1/2, 1] : List ℚ)[2]? = some 1 ∧
    ([0, 5, 1, 2, 1/2, 1] : List ℚ)[3]? = some 2 := by
  refine ⟨?_, by simp, by simp, by simp⟩
  have e : firstMin ([0, 5, 1, 2, 1/2, 1] : List ℚ) 1 = .ok 4 := by decide +kernel
  unfold bondLengthOf
  rw [e, ok_bind]
  norm_num

/-- **C106** is false in general: the loop meant to skip empty bins changes nothing, so an empty bin anywhere
after the highest one makes the program run for ever. -/
theorem C106_hang_counterexample [IsStrictOrderedRing G] {g : List G} {p k : Nat} (hp : HighestBin g p)
    (h0 : ∀ x ∈ g, 0 ≤ x) (hk : p ≤ k) (hz : g[k]? = some 0) (fuel : Nat) :
    firstMin g fuel = .error .diverge := by
  have hlen : p < g.length := by
    obtain ⟨x, h, -⟩ := hp
    exact (List.getElem?_eq_some_iff.1 h).1
  have hm := lowest_from hlen
  obtain ⟨hle, x, hx, hall, -⟩ := id hm
  have hx0 : x = 0 := le_antisymm (hall k 0 hk hz) (h0 x (List.mem_of_getElem? hx))
  induction fuel with
  | zero => rfl
  | succ fuel ih => rw [firstMin_step hp hm, getR_ok.2 hx, ok_bind, if_pos hx0, ih]

example : HighestBin ([0, 2, 1, 0, 1] : List ℚ) 1 ∧ (∀ x ∈ ([0, 2, 1, 0, 1] : List ℚ), 0 ≤ x) ∧
    ([0, 2, 1, 0, 1] : List ℚ)[3]? = some 0 := by
  have e1 : maxElement ([0, 2, 1, 0, 1] : List ℚ) = 1 := by decide +kernel
  exact ⟨e1 ▸ maxElement_spec (by simp), by decide +kernel, by simp⟩

/-- **C106** is false for `bonds` without its second argument: whatever the distribution, the length used for
the bonds is 0. -/
theorem C106_bonds_counterexample (g : List G) (fuel : Nat) (x : G)
    (h : bondsMaxLength none g fuel = .ok x) : x = 0 := by
  unfold bondsMaxLength at h
  rw [bind_ok] at h
  obtain ⟨_, _, h⟩ := h
  exact (Except.ok.inj h).symm

example : bondsMaxLength none ([0, 1/2, 3, 2, 1/2, 1, 1] : List ℚ) 1 = .ok 0 := by decide +kernel

/-! ### The sum or the mean -/

theorem maxElementFrom_scale [IsStrictOrderedRing G] {c : G} (hc : 0 < c) : ∀ (l : List G) (best : Nat) (m : G) (i : Nat),
    maxElementFrom best (m / c) i (l.map (· / c)) = maxElementFrom best m i l := by
  intro l
  induction l with
  | nil => intros; rfl
  | cons x l ih =>
    intro best m i
    simp only [List.map_cons, maxElementFrom, div_lt_div_iff_of_pos_right hc, ih]

theorem minElementFrom_scale [IsStrictOrderedRing G] {c : G} (hc : 0 < c) : ∀ (l : List G) (best : Nat) (m : G) (i : Nat),
    minElementFrom best (m / c) i (l.map (· / c)) = minElementFrom best m i l := by
  intro l
  induction l with
  | nil => intros; rfl
  | cons x l ih =>
    intro best m i
    simp only [List.map_cons, minElementFrom, div_lt_div_iff_of_pos_right hc, ih]

theorem firstMin_scale [IsStrictOrderedRing G] {c : G} (hc : 0 < c) (g : List G) (fuel : Nat) :
    firstMin (g.map (· / c)) fuel = firstMin g fuel := by
  have e1 : maxElement (g.map (· / c)) = maxElement g := by
    cases g with
    | nil => rfl
    | cons x l => exact maxElementFrom_scale hc l 0 x 1
  have e2 : ∀ l : List G, minElement (l.map (· / c)) = minElement l := by
    intro l
    cases l with
    | nil => rfl
    | cons x l => exact minElementFrom_scale hc l 0 x 1
  induction fuel with
  | zero => rfl
  | succ fuel ih =>
    unfold firstMin
    simp only [e1, ← List.map_drop, e2, ih]
    unfold getR
    rw [List.getElem?_map]
    cases g[maxElement g + minElement (g.drop (maxElement g))]? with
    | none => rfl
    | some v =>
      simp only [Option.map_some, ok_bind]
      by_cases h : v = 0
      · rw [if_pos h, if_pos (by rw [h]; simp)]
      · rw [if_neg h, if_neg (by simp [h, hc.ne'])]

/-- **C106** The bond length is the same when it is found from the sum over the frames, as the first time the
program is run, or from the mean that run has left in the file. -/
theorem C106_reload [IsStrictOrderedRing G] (n : Nat) (frames : List (List G)) (h : frames ≠ [])
    (fuel : Nat) : bondLengthOf (writtenG n frames) fuel = bondLengthOf (totalG n frames) fuel := by
  unfold bondLengthOf writtenG
  rw [firstMin_scale (by
    rw [Nat.cast_pos]; exact List.length_pos_iff.2 h)]

/-! ### The average distribution -/

theorem zipWith_add_getElem? {a b : List G} {r : Nat} {x y : G} (ha : a[r]? = some x) (hb : b[r]? = some y) :
    (List.zipWith (· + ·) a b)[r]? = some (x + y) := by
  rw [List.getElem?_zipWith, ha, hb]

omit [LinearOrder G] in
theorem totalG_spec (n : Nat) : ∀ (frames : List (List G)), (∀ g ∈ frames, g.length = n) →
    ∀ (acc : List G), acc.length = n → ∀ (r : Nat) (x : G), acc[r]? = some x →
    (frames.foldl (fun total g => List.zipWith (· + ·) total g) acc)[r]? =
      some (x + (frames.map (fun g => g.getD r 0)).sum) := by
  intro frames
  induction frames with
  | nil => intro _ acc _ r x h; simpa using h
  | cons g frames ih =>
    intro hl acc ha r x hx
    have hr : r < n := by
      have := (List.getElem?_eq_some_iff.1 hx).1; omega
    have hg := hl g (by simp)
    rw [List.foldl_cons, ih (fun g h => hl g (by simp [h])) _ (by simp [ha, hg]) r (x + g.getD r 0) ?_]
    · simp [add_assoc]
    · rw [List.getElem?_zipWith, hx, List.getElem?_eq_getElem (by omega), List.getD_eq_getElem?_getD,
        List.getElem?_eq_getElem (by omega)]
      rfl

/-- **C107** The file written by `linkboo` and `all_bonds` has in each bin the mean over the frames. -/
theorem C107_mean (n : Nat) (frames : List (List G)) (hl : ∀ g ∈ frames, g.length = n) (r : Nat)
    (hr : r < n) : (writtenG n frames)[r]? =
      some ((frames.map (fun g => g.getD r 0)).sum / (frames.length : G)) := by
  unfold writtenG totalG
  rw [List.getElem?_map, totalG_spec n frames hl _ (by simp) r 0 (by simp [List.getElem?_replicate, hr])]
  simp

example : writtenG 2 ([[0, 1], [1, 3]] : List (List ℚ)) = [1/2, 2] := by decide +kernel

omit [LinearOrder G] in
theorem totalRdfLoop_spec (file : Nat → R (List G)) (N : Nat) (hN : file N = .error .invalidArgument)
    (n : Nat) : ∀ (k t : Nat) (frames : List (List G)), frames.length = k → t + k = N →
    (∀ (i : Nat) (g : List G), frames[i]? = some g → file (t + i) = .ok g) → ∀ (fuel : Nat), k < fuel →
    ∀ (acc : List G),
    totalRdfLoop file fuel t acc =
      .ok (frames.foldl (fun total g => List.zipWith (· + ·) g total) acc, N + 1) := by
  intro k
  induction k with
  | zero =>
    intro t frames hf ht _ fuel hk acc
    obtain ⟨f, rfl⟩ : ∃ f, fuel = f + 1 := ⟨fuel - 1, by omega⟩
    have : frames = [] := by simpa using hf
    subst this
    simp only [Nat.add_zero] at ht
    subst ht
    unfold totalRdfLoop
    rw [hN]
    rfl
  | succ k ih =>
    intro t frames hf ht hg fuel hk acc
    obtain ⟨f, rfl⟩ : ∃ f, fuel = f + 1 := ⟨fuel - 1, by omega⟩
    match frames, hf with
    | g :: frames, hf =>
      unfold totalRdfLoop
      rw [show file t = .ok g from hg 0 g (by simp)]
      simp only
      rw [ih (t + 1) frames (by simpa using hf) (by omega) ?_ f (by omega), List.foldl_cons]
      intro i g' hi
      have := hg (i + 1) g' (by simpa using hi)
      rw [show t + 1 + i = t + (i + 1) by omega]
      exact this

/-- **C107** (part) `totalRdf`, on files from 0 to `N - 1`, writes in each bin the sum over these frames divided
by `N + 1`. (The mean would be the sum divided by `N`.) -/
theorem C107_totalRdf_partial (file : Nat → R (List G)) (frames : List (List G)) (n : Nat)
    (hl : ∀ g ∈ frames, g.length = n)
    (hf : ∀ (t : Nat) (g : List G), frames[t]? = some g → file t = .ok g)
    (hN : file frames.length = .error .invalidArgument) (fuel : Nat) (hfuel : frames.length < fuel) :
    ∃ out, totalRdf file n fuel = .ok out ∧ out.length = n ∧ ∀ r : Nat, r < n →
      out[r]? = some ((frames.map (fun g => g.getD r 0)).sum / ((frames.length + 1 : Nat) : G)) := by
  have h := totalRdfLoop_spec file frames.length hN n frames.length 0 frames rfl (by omega)
    (fun i g hi => by rw [Nat.zero_add]; exact hf i g hi) fuel hfuel (List.replicate n 0)
  have hcomm : (frames.foldl (fun total g => List.zipWith (· + ·) g total) (List.replicate n 0)) =
      totalG n frames := by
    unfold totalG
    congr 1
    funext total g
    exact List.zipWith_comm_of_comm (by intro x y; exact add_comm x y) ..
  rw [hcomm] at h
  have hlen : ∀ (fr : List (List G)), (∀ g ∈ fr, g.length = n) → ∀ acc : List G, acc.length = n →
      (fr.foldl (fun total g => List.zipWith (· + ·) total g) acc).length = n := by
    intro fr
    induction fr with
    | nil => intro _ acc h; simpa using h
    | cons g fr ih =>
      intro hg acc ha
      exact ih (fun g h => hg g (by simp [h])) _ (by simp [ha, hg g (by simp)])
  refine ⟨_, by unfold totalRdf; rw [h, ok_bind]; rfl, ?_, ?_⟩
  · rw [List.length_map]
    exact hlen frames hl _ (by simp)
  · intro r hr
    rw [List.getElem?_map]
    unfold totalG
    rw [totalG_spec n frames hl _ (by simp) r 0 (by simp [List.getElem?_replicate, hr])]
    simp

/-- **C107** is false for `totalRdf`: the name of the first missing file has been counted too. Whatever the
number of frames, what is written is smaller than the mean. -/
theorem C107_average_counterexample [IsStrictOrderedRing G] (file : Nat → R (List G))
    (frames : List (List G)) (n : Nat) (hl : ∀ g ∈ frames, g.length = n)
    (hf : ∀ (t : Nat) (g : List G), frames[t]? = some g → file t = .ok g)
    (hN : file frames.length = .error .invalidArgument) (fuel : Nat) (hfuel : frames.length < fuel)
    (r : Nat) (hr : r < n) (hpos : 0 < (frames.map (fun g => g.getD r 0)).sum) :
    ∃ out x, totalRdf file n fuel = .ok out ∧ out[r]? = some x ∧
      x < (frames.map (fun g => g.getD r 0)).sum / (frames.length : G) := by
  obtain ⟨out, h1, -, h3⟩ := C107_totalRdf_partial file frames n hl hf hN fuel hfuel
  refine ⟨out, _, h1, h3 r hr, ?_⟩
  have hN0 : 0 < frames.length := by
    rcases frames with _ | ⟨g, l⟩
    · simp at hpos
    · simp
  refine div_lt_div_of_pos_left hpos (by exact_mod_cast hN0) ?_
  push_cast
  linarith

/-- Two files with a flat distribution: 2/3 is written. -/
example : totalRdf (fun t => if t < 2 then .ok ([1, 1] : List ℚ) else .error .invalidArgument) 2 3 =
    .ok [2/3, 2/3] := by decide +kernel

end Mains
end Colloids
